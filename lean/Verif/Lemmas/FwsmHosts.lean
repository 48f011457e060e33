import Verif.Lemmas.FwsmClean
import Verif.Spec.HostsSpec
import Verif.Props.Ranges
import Verif.Props.IosRoutes
/-!
# The hosts and ids in whatever FWSM text is accepted
-/
namespace Acltk

theorem Configured.ordinary {w : Bool} {h : Host} (hc : Configured w h) : Ordinary h := by
  induction hc with
  | host a ha => intro l hl; cases hl; exact ⟨ha, by simp⟩
  | net n hn => intro l hl; cases hl; exact ⟨hn, by simp⟩
  | wild a m _ h1 h2 => intro l hl; cases hl; exact ⟨⟨h1, h2⟩, by simp⟩
  | any => intro l hl; cases hl; exact ⟨trivial, by simp⟩
  | any4 => intro l hl; cases hl; exact ⟨trivial, by simp⟩
  | any6 => intro l hl; cases hl; exact ⟨trivial, by simp⟩
  | iface => intro l hl; cases hl; exact ⟨trivial, by simp⟩
  | obj nm l _ _ ih => intro x hl; cases hl with | obj hm hl => exact ih _ hm x hl
  | group nm l _ ih => intro x hl; cases hl with | group hm hl => exact ih _ hm x hl

theorem Configured.flat {w : Bool} {h : Host} (hc : Configured w h) : FlatObjects h := by
  induction hc with
  | obj nm l _ hl _ => intro nm' l' hg; cases hg; exact hl
  | group nm l _ ih =>
    intro nm' l' hg
    cases hg with
    | group hm hg => exact ih _ hm nm' l' hg
  | _ => intro nm' l' hg; cases hg

theorem Configured.noWild {h : Host} (hc : Configured false h) : ¬ HasWild h := by
  rintro ⟨a, m, hl⟩
  induction hc with
  | wild _ _ h => cases h
  | obj nm l _ _ ih => cases hl with | obj hm hl => exact ih _ hm hl
  | group nm l _ ih => cases hl with | group hm hl => exact ih _ hm hl
  | _ => cases hl

theorem Configured.mono {w : Bool} {h : Host} (hc : Configured false h) : Configured w h := by
  induction hc with
  | host a ha => exact .host a ha
  | net n hn => exact .net n hn
  | wild _ _ h => cases h
  | any => exact .any
  | any4 => exact .any4
  | any6 => exact .any6
  | iface => exact .iface _
  | obj nm l _ hl ih => exact .obj nm l ih hl
  | group nm l _ ih => exact .group nm l ih

namespace FwsmText
open Acltk Acltk.Lookup Acltk.Peg Acltk.AclText

variable {α β : Type} {g : Guard} {s : St}

theorem Val.mono {p : P α} {V W : α → Prop} (h : Val p V) (hi : ∀ a, V a → W a) : Val p W := fun t a r e => hi a (h t a r e)

theorem Val.true {p : P α} : Val p (fun _ => True) := fun _ _ _ _ => trivial

theorem Val.alts {l : List (P α)} {V : α → Prop} (h : ∀ p ∈ l, Val p V) : Val (alts l) V := by
  induction l with
  | nil => exact Val.alts_nil
  | cons p l ih => exact Val.alts_cons (h p (by simp)) (ih fun q hq => h q (by simp [hq]))

theorem Val.opt {p : P α} {V : α → Prop} (h : Val p V) : Val (opt p) (fun o => ∀ a, o = some a → V a) := by
  intro t o r ho
  unfold Peg.opt at ho
  split at ho
  · rename_i a s hp
    cases ho
    intro b hb
    cases hb
    exact h _ _ _ hp
  · cases ho; intro a ha; cases ha
  · cases ho

theorem Val.many1 {p : P α} {V : α → Prop} (h : Val p V) : Val (many1 p) (fun l => ∀ a ∈ l, V a) := by
  intro t l r hl
  unfold Peg.many1 at hl
  split at hl
  · rename_i a s ha
    split at hl
    · rename_i m u hm
      cases hl
      intro x hx
      rcases List.mem_cons.1 hx with rfl | hx
      · exact h _ _ _ ha
      · exact h.many _ _ _ hm x hx
    · cases hl
    · cases hl
  · cases hl
  · cases hl

theorem mem_dGet {d : Dict String β} {k : String} {v : β} (h : dGet d k = some v) : (k, v) ∈ d := by
  induction d with
  | nil => cases h
  | cons x d ih =>
    obtain ⟨k', v'⟩ := x
    simp only [dGet] at h
    split at h
    · rename_i hk; cases h; rw [hk]; exact List.mem_cons_self
    · exact List.mem_cons_of_mem _ (ih h)

theorem val_refer {d : Dict String β} {V : β → Prop} {term : Text → Bool} (h : ∀ p ∈ d, V p.2) : Val (refer g term d) V := by
  intro t b r hb
  unfold refer at hb
  split at hb
  · cases hb
  · split at hb
    · rename_i v hv
      cases hb
      exact h _ (mem_dGet hv)
    · cases hb

theorem val_dSet {d : Dict String β} {k : String} {v : β} {V : β → Prop} (hd : ∀ p ∈ d, V p.2) (hv : V v) : ∀ p ∈ dSet d k v, V p.2 := by
  induction d with
  | nil => intro p hp; simp [dSet] at hp; subst hp; exact hv
  | cons x d ih =>
    obtain ⟨k', v'⟩ := x
    intro p hp
    simp only [dSet] at hp
    split at hp
    · rcases List.mem_cons.1 hp with rfl | hp
      · exact hv
      · exact hd p (List.mem_cons_of_mem _ hp)
    · rcases List.mem_cons.1 hp with rfl | hp
      · exact hd _ List.mem_cons_self
      · exact ih (fun q hq => hd q (List.mem_cons_of_mem _ hq)) p hp

/-- The tables hold hosts of configurations. -/
structure HostsOk (w : Bool) (e : Env) : Prop where
  names : ∀ p ∈ e.names, p.2.Valid
  netObjs : ∀ p ∈ e.netObjs, Configured w p.2
  netGroups : ∀ p ∈ e.netGroups, Configured w p.2

theorem val_ip4 : Val ip4 Addr.Valid := Val.skip fun _ => Val.act fun _ h => ipAddress_valid h
theorem val_ip6 : Val ip6 Addr.Valid := Val.skip fun _ => Val.act fun _ h => ipAddress_valid h

variable {e : Env} {w : Bool}

theorem val_nameWs (he : HostsOk w e) : Val (nameWs e) Addr.Valid := val_refer he.names
theorem val_nameSlash (he : HostsOk w e) : Val (nameSlash e) Addr.Valid := val_refer he.names

theorem val_net {a m : List Char} {k : Net → P Host} (hk : ∀ n, k n = pure (.net n)) :
    Val (act (mkNetwork a m) >>= k) (Configured w) :=
  Val.bind (Val.act fun n h => IosConfig.mkNetwork_valid h) fun n hn => by rw [hk]; exact Val.pure (.net n hn)

theorem val_aclHost (he : HostsOk w e) : Val (aclHost e) (Configured w) := by
  unfold aclHost
  refine Val.alts_cons ?_ <| Val.alts_cons ?_ <| Val.alts_cons ?_ <| Val.alts_cons ?_ <| Val.alts_cons ?_ <| Val.alts_cons ?_ <|
    Val.alts_cons ?_ Val.alts_nil
  · refine Val.skip fun _ => Val.skip fun _ => Val.bind (V := Addr.Valid) ?_ fun a ha => Val.pure (.host a ha)
    exact Val.alts_cons (val_nameWs he) <| Val.alts_cons (val_nameSlash he) <| Val.alts_cons val_ip4 <| Val.alts_cons val_ip6 Val.alts_nil
  · exact Val.skip fun _ => Val.skip fun _ => Val.skip fun _ => Val.pure (.iface _)
  · refine Val.skip fun w => Val.pure ?_
    split
    · exact .any4
    · split
      · exact .any6
      · exact .any
  · exact Val.skip fun _ => Val.skip fun _ => val_refer he.netObjs
  · exact Val.skip fun _ => Val.skip fun _ => val_refer he.netGroups
  · exact Val.skip fun _ => Val.skip fun _ => Val.skip fun _ => val_net fun _ => rfl
  · exact Val.skip fun _ => Val.skip fun _ => Val.skip fun _ => val_net fun _ => rfl

theorem val_node (he : HostsOk w e) : Val (node e) (fun n => Configured w n.host) := by
  unfold node
  refine Val.bind (val_aclHost he) fun h hh => Val.skip fun p => Val.act ?_
  intro a ha
  split at ha
  · cases ha
  · cases ha; exact hh

/-- The id of a rule as it is read: letters, digits and a few further characters. -/
def NameChars (x : String) : Prop := ∀ c ∈ x.toList, isNameChar c = true

/-- What is known of a rule. -/
def RuleOk (w : Bool) (r : PRule) : Prop := NameChars r.id ∧ Configured w r.src.host ∧ Configured w r.dst.host

theorem val_objName_chars : Val objName (fun l => ∀ c ∈ l, isNameChar c = true) := by
  intro t a r h
  obtain ⟨c, -, rfl, hc⟩ := reads_pat (e := .star isNameChar) (P := fun c => isNameChar c = true) (fun c h => h) _ _ _ h
  exact hc

theorem val_head : Val (head g) NameChars := by
  unfold head
  refine Val.skip fun _ => Val.skip fun _ => Val.bind val_objName_chars fun i hi => Val.skip fun _ => Val.pure ?_
  intro c hc
  rw [String.toList_ofList] at hc
  exact hi c hc

theorem val_ruleExtended (he : HostsOk w e) : Val (ruleExtended e) (RuleOk w) := by
  unfold ruleExtended
  refine Val.alt ?_ ?_
  · exact Val.bind val_head fun i hi => Val.skip fun _ => Val.skip fun _ => Val.skip fun _ => Val.skip fun _ => Val.skip fun _ =>
      Val.skip fun _ => Val.bind (val_aclHost he) fun a ha => Val.skip fun _ => Val.bind (val_aclHost he) fun b hb =>
      Val.skip fun _ => Val.skip fun _ => Val.pure ⟨hi, ha, hb⟩
  · exact Val.bind val_head fun i hi => Val.skip fun _ => Val.skip fun _ => Val.skip fun _ => Val.skip fun _ => Val.skip fun _ =>
      Val.skip fun _ => Val.bind (val_node he) fun a ha => Val.skip fun _ => Val.bind (val_node he) fun b hb =>
      Val.skip fun _ => Val.pure ⟨hi, ha, hb⟩

theorem val_ruleStandard (he : HostsOk w e) : Val (ruleStandard e) (RuleOk w) := by
  unfold ruleStandard
  exact Val.bind val_head fun i hi => Val.skip fun _ => Val.skip fun _ => Val.skip fun _ => Val.skip fun _ =>
      Val.bind (val_aclHost he) fun a ha => Val.skip fun _ => Val.skip fun _ => Val.pure ⟨hi, ha, .any⟩

theorem val_ruleWebtype (he : HostsOk w e) : Val (ruleWebtype e) (RuleOk w) := by
  unfold ruleWebtype
  refine Val.alt ?_ ?_
  · exact Val.bind val_head fun i hi => Val.skip fun _ => Val.skip fun _ => Val.skip fun _ => Val.skip fun _ => Val.skip fun _ =>
      Val.skip fun _ => Val.skip fun _ => Val.skip fun _ => Val.pure ⟨hi, .any, .any⟩
  · exact Val.bind val_head fun i hi => Val.skip fun _ => Val.skip fun _ => Val.skip fun _ => Val.skip fun _ => Val.skip fun _ =>
      Val.skip fun _ => Val.bind (val_node he) fun b hb => Val.skip fun _ => Val.pure ⟨hi, .any, hb⟩

theorem val_remarked {p : P (Option PRule)} (hp : Val p (fun o => ∀ r, o = some r → RuleOk w r)) :
    Val (remarked e p) (fun o => ∀ r, o = some r → RuleOk w r) := by
  unfold remarked
  refine Val.skip fun rs => Val.bind hp fun o ho => Val.pure ?_
  intro r hr
  cases o with
  | none => cases hr
  | some x => cases hr; exact ho x rfl

theorem val_accessList (he : HostsOk w e) : Val (accessList e) (fun o => ∀ r, o = some r → RuleOk w r) := by
  have some_ok : ∀ p : P PRule, Val p (RuleOk w) → Val (do let r ← p; pure (some r)) (fun o => ∀ r, o = some r → RuleOk w r) := by
    intro p hp
    exact Val.bind hp fun r hr => Val.pure (by intro x hx; cases hx; exact hr)
  have hx := some_ok _ (val_ruleExtended he)
  have hs := some_ok _ (val_ruleStandard he)
  have hw := some_ok _ (val_ruleWebtype he)
  have ht : Val (do ruleEthertype e; pure none) (fun o : Option PRule => ∀ r, o = some r → RuleOk w r) :=
    Val.skip fun _ => Val.pure (by intro r h; cases h)
  unfold accessList
  exact Val.alts_cons (val_remarked hx) <| Val.alts_cons hx <| Val.alts_cons (val_remarked hs) <| Val.alts_cons hs <|
    Val.alts_cons (val_remarked hw) <| Val.alts_cons hw <| Val.alts_cons (val_remarked ht) <| Val.alts_cons ht Val.alts_nil

/-! ## NAT -/

/-- The node is a host of a configuration or the keyword. -/
def NodeOk (w : Bool) (x : NatCmd.Node') : Prop := ∀ h, x = .host h → Configured w h

theorem nodeOk_host {h : Host} (hh : Configured w h) : NodeOk w (.host h) := by intro x hx; cases hx; exact hh
theorem nodeOk_iface : NodeOk w .interface := by intro x hx; cases hx

theorem val_netRef (hs : HostsOk w s.env) : Val (netRef s) (Configured w) := by
  unfold netRef
  exact Val.alt (val_refer hs.netObjs) (val_refer hs.netGroups)

theorem val_patPool (hs : HostsOk w s.env) : Val (patPool s) (Configured w) := by
  unfold patPool
  exact Val.skip fun _ => Val.skip fun _ => Val.bind (Val.alt (val_refer hs.netGroups) (val_refer hs.netObjs)) fun h hh =>
    Val.skip fun _ => Val.pure hh

theorem val_mappedAddress {a : Addr} {m : Option (List Char)} (ha : a.Valid) : Val (act (mappedAddress a m)) (Configured w) := by
  refine Val.act ?_
  intro h hh
  cases m with
  | none => cases hh; exact .host a ha
  | some m =>
    simp only [mappedAddress] at hh
    split at hh
    · rename_i n hn; cases hh; exact .net n (IosConfig.mkNetwork_valid hn)
    · cases hh

theorem val_natMapped (hs : HostsOk w s.env) : Val (natMapped s) (fun x => NodeOk w x.1) := by
  unfold natMapped
  refine Val.alts_cons ?_ <| Val.alts_cons ?_ <| Val.alts_cons ?_ <| Val.alts_cons ?_ <| Val.alts_cons ?_ Val.alts_nil
  · exact Val.bind (val_netRef hs) fun h hh => Val.skip fun _ => Val.pure (nodeOk_host hh)
  · exact Val.bind val_ip4 fun a ha => Val.skip fun _ => Val.pure (nodeOk_host (.host a ha))
  · exact Val.bind val_ip6 fun a ha => Val.skip fun _ => Val.bind (val_mappedAddress ha) fun h hh => Val.skip fun _ =>
      Val.pure (nodeOk_host hh)
  · exact Val.skip fun _ => Val.pure nodeOk_iface
  · exact Val.bind (val_patPool hs) fun h hh => Val.skip fun _ => Val.pure (nodeOk_host hh)

theorem val_objectNat (hs : HostsOk w s.env) : Val (objectNat s) (fun x => NodeOk w x.node) := by
  have hh : ∀ ty, Val (objectNatHead s ty) (fun x => NodeOk w x.2.1) := by
    intro ty
    unfold objectNatHead
    exact Val.skip fun _ => Val.skip fun _ => Val.skip fun _ => Val.skip fun _ => Val.skip fun _ => Val.skip fun _ =>
      Val.bind (val_natMapped hs) fun m hm => Val.pure hm
  unfold objectNat
  refine Val.alt ?_ ?_
  · refine Val.bind (hh _) fun x hx => ?_
    exact Val.skip fun _ => Val.pure hx
  · refine Val.bind (hh _) fun x hx => ?_
    exact Val.skip fun _ => Val.skip fun _ => Val.pure hx

theorem val_mappedNode (hs : HostsOk w s.env) : Val (mappedNode s) (NodeOk w) := by
  unfold mappedNode
  refine Val.alts_cons ?_ <| Val.alts_cons ?_ <| Val.alts_cons ?_ Val.alts_nil
  · exact Val.bind (val_netRef hs) fun h hh => Val.pure (nodeOk_host hh)
  · exact Val.skip fun _ => Val.pure nodeOk_iface
  · exact Val.skip fun _ => Val.pure (nodeOk_host .any)

theorem val_mappedDynamic (hs : HostsOk w s.env) : Val (mappedDynamic s) (fun x => NodeOk w x.1) := by
  unfold mappedDynamic
  refine Val.alts_cons ?_ <| Val.alts_cons ?_ <| Val.alts_cons ?_ Val.alts_nil
  · exact Val.bind (val_netRef hs) fun h hh => Val.skip fun _ => Val.pure (nodeOk_host hh)
  · exact Val.skip fun _ => Val.pure nodeOk_iface
  · exact Val.bind (val_patPool hs) fun h hh => Val.skip fun _ => Val.pure (nodeOk_host hh)

theorem val_realNode (hs : HostsOk w s.env) : Val (realNode s) (NodeOk w) := by
  unfold realNode
  refine Val.alts_cons ?_ <| Val.alts_cons ?_ <| Val.alts_cons ?_ Val.alts_nil
  · exact Val.skip fun _ => Val.bind (val_refer hs.netObjs) fun h hh => Val.pure (nodeOk_host hh)
  · exact Val.skip fun _ => Val.bind (val_refer hs.netGroups) fun h hh => Val.pure (nodeOk_host hh)
  · exact Val.skip fun _ => Val.pure (nodeOk_host .any)

theorem val_natSrc (hs : HostsOk w s.env) : Val (natSrc s) (fun x => NodeOk w x.real ∧ NodeOk w x.mapped) := by
  unfold natSrc
  refine Val.alt ?_ ?_
  · exact Val.skip fun _ => Val.skip fun _ => Val.skip fun _ => Val.skip fun _ => Val.bind (val_realNode hs) fun r hr =>
      Val.skip fun _ => Val.bind (val_mappedDynamic hs) fun m hm => Val.pure ⟨hr, hm⟩
  · exact Val.skip fun _ => Val.skip fun _ => Val.skip fun _ => Val.skip fun _ => Val.bind (val_realNode hs) fun r hr =>
      Val.skip fun _ => Val.bind (val_mappedNode hs) fun m hm => Val.pure ⟨hr, hm⟩

theorem val_natDst (hs : HostsOk w s.env) : Val (natDst s) (fun x => NodeOk w x.1 ∧ NodeOk w x.2) := by
  unfold natDst
  exact Val.skip fun _ => Val.skip fun _ => Val.skip fun _ => Val.skip fun _ => Val.bind (val_mappedNode hs) fun m hm =>
    Val.skip fun _ => Val.bind (val_netRef hs) fun r hr => Val.pure ⟨nodeOk_host hr, hm⟩

/-- The side of a NAT entry is missing or a host of a configuration. -/
def SideOk (w : Bool) (x : Option NatCmd.Node') : Prop := x = none ∨ ∃ h, x = some (.host h) ∧ Configured w h

/-- All sides of a NAT entry. -/
def NatOk (w : Bool) (n : NatCmd.Nat') : Prop :=
  SideOk w n.real.src ∧ SideOk w n.real.dst ∧ SideOk w n.mapped.src ∧ SideOk w n.mapped.dst

theorem sideOk_host {h : Host} (hh : Configured w h) : SideOk w (some (.host h)) := Or.inr ⟨h, rfl, hh⟩

theorem sideOk_subst {l : String} {x : NatCmd.Node'} (hx : NodeOk w x) : SideOk w (some (NatCmd.subst l x)) := by
  cases x with
  | host h => exact sideOk_host (hx h rfl)
  | interface => exact sideOk_host (.iface l)

theorem natOk_twice {c : NatCmd.Cmd} {n : NatCmd.Nat'} (h : NatCmd.twiceNat c = .ok (some n))
    (hs : NodeOk w c.src.real ∧ NodeOk w c.src.mapped) (hd : ∀ d, c.dst = some d → NodeOk w d.1 ∧ NodeOk w d.2) : NatOk w n := by
  have hm : ∀ (l : String) (f : NatCmd.Node' × NatCmd.Node' → NatCmd.Node'), (∀ d, c.dst = some d → NodeOk w (f d)) →
      SideOk w (c.dst.map (fun d => NatCmd.subst l (f d))) := by
    intro l f hf
    cases hc : c.dst with
    | none => exact Or.inl rfl
    | some d => exact sideOk_subst (hf d hc)
  unfold NatCmd.twiceNat at h
  split at h
  · cases h
  · simp only [bind, Except.bind] at h
    split at h
    · cases h
    · cases h
      exact ⟨sideOk_subst hs.1, hm _ (·.1) (fun d e => (hd d e).1), sideOk_subst hs.2, hm _ (·.2) (fun d e => (hd d e).2)⟩

theorem natOk_object {b : NatCmd.Block} {n : NatCmd.Nat'} (h : (NatCmd.objectType b).2 = some n)
    (hb : Configured w (.obj b.name (b.addresses.getD []))) (hn : ∀ a, b.nat = some a → NodeOk w a.node) : NatOk w n := by
  unfold NatCmd.objectType at h
  cases ha : b.nat with
  | none => rw [ha] at h; cases h
  | some a =>
    rw [ha] at h
    simp only [Option.map_some, Option.some.injEq] at h
    subst h
    exact ⟨sideOk_host hb, sideOk_host .any, sideOk_subst (hn a ha), sideOk_host .any⟩

/-- What is known of an element of the parse result. -/
def ItemOk (w : Bool) : Item → Prop
  | .rule r => RuleOk w r
  | .netGroup n l _ => Configured w (.group n l)
  | .netObj n l nat _ => Configured w (.obj n l) ∧ ∀ x, nat = some x → NatOk w x
  | .nat x => NatOk w x
  | _ => True

theorem val_nat (hs : HostsOk w s.env) : Val (nat s) (ItemOk w) := by
  unfold nat
  refine Val.alt ?_ ?_
  · refine Val.skip fun _ => Val.skip fun _ => Val.skip fun _ => Val.skip fun _ => Val.skip fun _ => Val.bind (val_natSrc hs) fun src hsrc =>
      Val.bind (Val.opt (p := (do ws; natDst s)) (Val.skip fun _ => val_natDst hs)) fun dst hdst => Val.skip fun _ => Val.skip fun _ =>
      Val.skip fun _ => Val.skip fun _ => Val.bind (Val.act fun n hn => hn) fun n hn => Val.pure ?_
    cases n with
    | none => trivial
    | some n => exact natOk_twice hn hsrc hdst
  · exact Val.skip fun _ => Val.skip fun _ => Val.skip fun _ => Val.skip fun _ => Val.skip fun _ => Val.skip fun _ => Val.pure trivial

/-! ## objects and groups -/

theorem rebuildNets_net : ∀ (l : List Net) (hs : List Host), rebuildNets l = .ok hs → ∀ h ∈ hs, ∃ n : Net, h = .net n ∧ n.Valid
  | [], hs, h => by cases h; simp
  | n :: ns, hs, h => by
    simp only [rebuildNets] at h
    split at h
    · cases h
    · rename_i m hm
      split at h
      · cases h
      · rename_i l hl
        cases h
        intro x hx
        rcases List.mem_cons.1 hx with rfl | hx
        · exact ⟨m, rfl, IosConfig.mkNetwork_valid hm⟩
        · exact rebuildNets_net ns l hl x hx

theorem objAddresses_ok {a : ObjArgs} {l : List Host} (h : objAddresses a = .ok l) (nm : String) : Configured w (.obj nm l) := by
  have one : ∀ x : Host, Configured w x → Leaf x x → Configured w (.obj nm [x]) := by
    intro x h1 h2
    refine .obj nm [x] ?_ ?_ <;> (intro y hy; rw [List.mem_singleton.1 hy]; assumption)
  cases a with
  | empty => cases h; exact .obj nm [] (by simp) (by simp)
  | nat => cases h; exact .obj nm [] (by simp) (by simp)
  | host a =>
    simp only [objAddresses] at h
    split at h
    · rename_i x hx; cases h; exact one _ (.host x (ipAddress_valid hx)) .host
    · cases h
  | subnet a m =>
    simp only [objAddresses] at h
    split at h
    · rename_i n hn; cases h; exact one _ (.net n (IosConfig.mkNetwork_valid hn)) .net
    · cases h
  | range a b =>
    simp only [objAddresses] at h
    split at h
    · cases h
    · split at h
      · cases h
      · split at h
        · cases h
        · rename_i nets _
          have hr := rebuildNets_net nets l h
          refine .obj nm l ?_ ?_
          · intro x hx; obtain ⟨n, rfl, hn⟩ := hr x hx; exact .net n hn
          · intro x hx; obtain ⟨n, rfl, hn⟩ := hr x hx; exact .net
  | fqdn o =>
    cases o with
    | none => cases h; exact one _ .any .any
    | some o =>
      simp only [objAddresses] at h
      split at h
      · cases h; exact one _ .any4 .any4
      · split at h
        · cases h; exact one _ .any6 .any6
        · cases h
  | other => cases h

/-- What is known of a command. -/
def OutOk (w : Bool) (x : Item × St) : Prop := ItemOk w x.1 ∧ HostsOk w x.2.env

theorem val_objectNetwork (hs : HostsOk w s.env) : Val (objectNetwork s) (OutOk w) := by
  unfold objectNetwork
  dsimp only
  refine Val.skip fun _ => Val.skip fun _ => Val.skip fun n =>
    Val.bind (V := fun o : Option (ObjArgs × Option NatCmd.ObjNat) => ∀ a, o = some a → ∀ x, a.2 = some x → NodeOk w x.node)
      (Val.opt ?_) fun args hargs =>
    Val.bind (V := fun o : Option NatCmd.ObjNat => ∀ a, o = some a → NodeOk w a.node) (Val.opt (Val.skip fun _ => val_objectNat hs))
      fun nt hnt => Val.skip fun d => Val.bind (Val.act fun l hl => hl) fun l hl => Val.pure ?_
  · exact Val.skip fun _ => Val.skip fun _ => Val.alt (Val.skip fun _ => Val.pure (by intro x h; cases h))
      (Val.bind (val_objectNat hs) fun x hx => Val.pure (by intro y h; cases h; exact hx))
  · have hobj : ∀ nm, Configured w (.obj nm l) := objAddresses_ok hl
    refine ⟨⟨hobj _, ?_⟩, ?_⟩
    · intro x hx
      refine natOk_object hx (hobj _) ?_
      intro a ha
      simp only at ha
      split at ha
      · cases ha
        exact hargs _ rfl _ rfl
      · exact hnt a ha
    · simp only
      split
      · exact hs
      · exact { hs with netObjs := val_dSet hs.netObjs (hobj _) }

theorem val_networkMember (he : HostsOk w e) : Val (networkMember e) (Configured w) := by
  unfold networkMember
  refine Val.alts_cons ?_ <| Val.alts_cons ?_ <| Val.alts_cons ?_ <| Val.alts_cons ?_ <| Val.alts_cons ?_ <| Val.alts_cons ?_ Val.alts_nil
  · refine Val.skip fun _ => Val.skip fun _ => Val.skip fun _ => Val.skip fun _ => Val.bind (V := Addr.Valid) ?_ fun a ha =>
      Val.skip fun _ => Val.pure (.host a ha)
    exact Val.alts_cons (val_nameWs he) <| Val.alts_cons val_ip4 <| Val.alts_cons val_ip6 Val.alts_nil
  · exact Val.skip fun _ => Val.skip fun _ => Val.skip fun _ => Val.skip fun _ => Val.bind (val_refer he.netObjs) fun h hh =>
      Val.skip fun _ => Val.pure hh
  · exact Val.skip fun _ => Val.skip fun _ => Val.skip fun _ => Val.skip fun _ => Val.skip fun _ => Val.skip fun _ => val_net fun _ => rfl
  · exact Val.skip fun _ => Val.skip fun _ => Val.skip fun _ => Val.skip fun _ => Val.skip fun _ => Val.skip fun _ => val_net fun _ => rfl
  · exact Val.skip fun _ => Val.skip fun _ => Val.bind (val_refer he.netGroups) fun h hh => Val.skip fun _ => Val.pure hh
  · exact Val.act fun _ h => by cases h

theorem val_groupBody {m : P α} {V : α → Prop} (hm : Val m V) : Val (groupBody g m) (fun x => ∀ a ∈ x.2.2, V a) := by
  unfold groupBody indented
  exact Val.skip fun _ => Val.skip fun n => Val.skip fun _ => Val.skip fun _ => Val.skip fun _ =>
    Val.bind (Val.many (Val.skip fun _ => hm)) fun l hl => Val.pure hl

theorem val_objectGroup (hs : HostsOk w s.env) : Val (objectGroup s) (OutOk w) := by
  unfold objectGroup objectGroupType
  dsimp only
  refine Val.skip fun _ => Val.skip fun _ => Val.alts_cons ?_ <| Val.alts_cons ?_ <| Val.alts_cons ?_ <| Val.alts_cons ?_ <|
    Val.alts_cons ?_ Val.alts_nil
  · refine Val.skip fun _ => Val.bind (val_groupBody (val_networkMember hs)) fun ⟨n, d, l⟩ hl => Val.pure ?_
    have hg : Configured w (.group n l) := .group n l hl
    exact ⟨hg, { hs with netGroups := val_dSet hs.netGroups hg }⟩
  · exact Val.skip fun _ => Val.skip fun _ => Val.skip fun _ => Val.skip fun _ => Val.skip fun _ =>
      Val.skip fun _ => Val.skip fun _ => Val.skip fun _ => Val.skip fun _ => Val.skip fun _ => Val.pure ⟨trivial, ⟨hs.names, hs.netObjs, hs.netGroups⟩⟩
  · exact Val.skip fun _ => Val.skip fun ⟨n, d, l⟩ => Val.pure ⟨trivial, ⟨hs.names, hs.netObjs, hs.netGroups⟩⟩
  · exact Val.skip fun _ => Val.skip fun ⟨n, d, l⟩ => Val.pure ⟨trivial, ⟨hs.names, hs.netObjs, hs.netGroups⟩⟩
  · exact Val.skip fun _ => Val.skip fun ⟨n, d, l⟩ => Val.pure ⟨trivial, ⟨hs.names, hs.netObjs, hs.netGroups⟩⟩

theorem val_keep {p : P Item} (hp : Val p (ItemOk w)) (hs : HostsOk w s.env) : Val (keep s p) (OutOk w) :=
  Val.bind hp fun _ hi => Val.pure ⟨hi, hs⟩

theorem val_command (hs : HostsOk w s.env) : Val (command s) (OutOk w) := by
  unfold command
  dsimp only
  refine Val.alts_cons (val_keep ?_ hs) <| Val.alts_cons (val_keep ?_ hs) <| Val.alts_cons (val_keep ?_ hs) <|
    Val.alts_cons ?_ <| Val.alts_cons ?_ <| Val.alts_cons ?_ <|
    Val.alts_cons ?_ <| Val.alts_cons (val_objectGroup hs) <| Val.alts_cons (val_keep ?_ hs) <|
    Val.alts_cons (val_keep ?_ hs) <| Val.alts_cons (val_keep ?_ hs) <| Val.alts_cons (val_keep (val_nat hs) hs) <|
    Val.alts_cons (val_keep ?_ hs) <| Val.alts_cons (val_keep ?_ hs) Val.alts_nil
  · exact Val.skip fun _ => Val.skip fun _ => Val.pure trivial
  · exact Val.skip fun _ => Val.skip fun _ => Val.skip fun _ => Val.skip fun _ => Val.pure trivial
  · exact Val.skip fun _ => Val.skip fun _ => Val.skip fun _ => Val.pure trivial
  · unfold interface
    exact Val.skip fun _ => Val.skip fun _ => Val.skip fun _ => Val.skip fun _ => Val.skip fun _ => Val.skip fun _ => Val.pure ⟨trivial, hs⟩
  · unfold name
    refine Val.skip fun _ => Val.skip fun _ => Val.bind (Val.alt val_ip4 val_ip6) fun a ha => Val.skip fun _ => Val.skip fun _ =>
      Val.skip fun _ => Val.skip fun _ => Val.pure ⟨trivial, { hs with names := val_dSet hs.names ha }⟩
  · unfold timeRange
    exact Val.skip fun _ => Val.skip fun _ => Val.skip fun _ => Val.skip fun _ => Val.skip fun _ => Val.skip fun _ =>
      Val.pure ⟨trivial, ⟨hs.names, hs.netObjs, hs.netGroups⟩⟩
  · unfold object
    refine Val.skip fun _ => Val.skip fun _ => Val.alt (val_objectNetwork hs) ?_
    unfold objectService
    dsimp only
    refine Val.skip fun _ => Val.skip fun _ => Val.skip fun _ => Val.skip fun _ => Val.skip fun _ => Val.skip fun _ => Val.pure ?_
    refine ⟨trivial, ?_⟩
    simp only
    split
    · exact hs
    · exact ⟨hs.names, hs.netObjs, hs.netGroups⟩
  · refine Val.bind (val_accessList hs) fun r hr => Val.pure ?_
    cases r with
    | none => trivial
    | some r => exact hr r rfl
  · exact Val.skip fun _ => Val.pure trivial
  · unfold accessGroup
    refine Val.alt ?_ ?_
    · exact Val.skip fun _ => Val.skip fun _ => Val.skip fun _ => Val.skip fun _ => Val.skip fun _ => Val.skip fun _ => Val.skip fun _ => Val.skip fun _ => Val.skip fun _ => Val.skip fun _ => Val.skip fun _ =>
        Val.pure trivial
    · exact Val.skip fun _ => Val.skip fun _ => Val.skip fun _ => Val.skip fun _ => Val.skip fun _ => Val.skip fun _ => Val.skip fun _ =>
        Val.pure trivial
  · unfold ignored
    refine Val.alts ?_
    intro p hp
    obtain ⟨kt, -, rfl⟩ := List.mem_map.1 hp
    exact Val.skip fun _ => Val.skip fun _ => Val.pure trivial
  · exact Val.skip fun _ => Val.pure trivial

/-- An invariant of the tables that every command keeps, and what it gives for the elements read. -/
theorem commands_inv {S : St → Prop} {I : Item → Prop} (h : ∀ s, S s → Val (command s) (fun x => I x.1 ∧ S x.2)) :
    ∀ (n : Nat) (s s' : St) (t r : Text) (l : List Item), t.length = n → S s → commands s t = .ok (l, s') r → (∀ i ∈ l, I i) ∧ S s' := by
  intro n
  induction n using Nat.strongRecOn with
  | _ n ih =>
    intro s s' t r l hn hS hc
    rw [commands] at hc
    split at hc
    · rename_i i s1 r1 h1
      obtain ⟨hi, hs1⟩ := h s hS _ _ _ h1
      split at hc
      · rename_i hl
        split at hc
        · rename_i l2 s2 u h2
          cases hc
          obtain ⟨h3, h4⟩ := ih r1.length (by omega) s1 _ r1 _ _ rfl hs1 h2
          refine ⟨?_, h4⟩
          intro x hx
          rcases List.mem_cons.1 hx with rfl | hx
          · exact hi
          · exact h3 x hx
        · cases hc
        · cases hc
      · cases hc; exact ⟨by simp, hS⟩
    · cases hc; exact ⟨by simp, hS⟩
    · cases hc

theorem parseFile_items {t r : Text} {items : List Item} (h : parseFile g t = .ok items r) : ∀ i ∈ items, ItemOk false i := by
  unfold parseFile at h
  split at h
  · rename_i l s' hc
    split at h
    · cases h
    · cases h
      exact (commands_inv (S := fun s => HostsOk false s.env) (I := ItemOk false) (fun s hs => val_command hs) _ _ _ _ _ _ rfl
        ⟨by simp, by simp, by simp⟩ hc).1
  · cases h
  · cases h
  · cases h

end FwsmText
end Acltk
