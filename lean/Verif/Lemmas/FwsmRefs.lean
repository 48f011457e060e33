import Verif.Lemmas.FwsmHosts
import Verif.Spec.RefsSpec
/-!
# What the elements of an accepted FWSM text refer to
-/
namespace Acltk.FwsmText
open Acltk Acltk.Lookup Acltk.Peg Acltk.AclText

variable {α β γ : Type} {g : Guard} {s : St} {V : Host → Prop} {W : Config.Kind → Nat → Prop} {e : Env}

/-- What the tables of the parser hold satisfies the predicates, and so does every host that is no object and no group. -/
structure Ctx (V : Host → Prop) (W : Config.Kind → Nat → Prop) (e : Env) : Prop where
  leaf : ∀ h, (∀ n l, h ≠ .obj n l) → (∀ n l, h ≠ .group n l) → V h
  netObjs : ∀ n v, dGet e.netObjs n = some v → V v
  netGroups : ∀ n v, dGet e.netGroups n = some v → V v
  svcObjs : ∀ n v, dGet e.svcObjs n = some v → W .svcObj v
  svcGroups : ∀ n v, dGet e.svcGroups n = some v → W .svcGroup v
  portGroups : ∀ n v, dGet e.portGroups n = some v → W .portGroup v
  icmpGroups : ∀ n v, dGet e.icmpGroups n = some v → W .icmpGroup v
  protoGroups : ∀ n v, dGet e.protoGroups n = some v → W .protoGroup v
  timeRanges : ∀ n v, dGet e.timeRanges n = some v → W .timeRange v

theorem ref_refer {d : Dict String β} {V : β → Prop} {term : Text → Bool} (h : ∀ n v, dGet d n = some v → V v) : Val (refer g term d) V := by
  intro t b r hb
  unfold refer at hb
  split at hb
  · cases hb
  · split at hb
    · rename_i v hv
      cases hb
      exact h _ _ hv
    · cases hb

theorem Ctx.host (c : Ctx V W e) (a : Addr) : V (.host a) := c.leaf _ (by simp) (by simp)
theorem Ctx.net (c : Ctx V W e) (a : Net) : V (.net a) := c.leaf _ (by simp) (by simp)
theorem Ctx.iface (c : Ctx V W e) (a : String) : V (.iface a) := c.leaf _ (by simp) (by simp)
theorem Ctx.any (c : Ctx V W e) : V .any := c.leaf _ (by simp) (by simp)

theorem ref_aclHost (c : Ctx V W e) : Val (aclHost e) V := by
  unfold aclHost
  refine Val.alts_cons ?_ <| Val.alts_cons ?_ <| Val.alts_cons ?_ <| Val.alts_cons ?_ <| Val.alts_cons ?_ <| Val.alts_cons ?_ <|
    Val.alts_cons ?_ Val.alts_nil
  · exact Val.skip fun _ => Val.skip fun _ => Val.skip fun a => Val.pure (c.host a)
  · exact Val.skip fun _ => Val.skip fun _ => Val.skip fun _ => Val.pure (c.iface _)
  · refine Val.skip fun w => Val.pure (c.leaf _ ?_ ?_) <;> (intro n l; split <;> (first | (simp; done) | (split <;> simp)))
  · exact Val.skip fun _ => Val.skip fun _ => ref_refer c.netObjs
  · exact Val.skip fun _ => Val.skip fun _ => ref_refer c.netGroups
  · exact Val.skip fun _ => Val.skip fun _ => Val.skip fun _ => Val.skip fun _ => Val.pure (c.net _)
  · exact Val.skip fun _ => Val.skip fun _ => Val.skip fun _ => Val.skip fun _ => Val.pure (c.net _)

/-- All of a list satisfy the predicate. -/
def Ids (W : Config.Kind → Nat → Prop) (l : List (Config.Kind × Nat)) : Prop := ∀ p ∈ l, W p.1 p.2

theorem Ids.nil : Ids W [] := by simp [Ids]
theorem Ids.one {k : Config.Kind} {o : Nat} (h : W k o) : Ids W [(k, o)] := by simpa [Ids] using h
theorem Ids.append {l m : List (Config.Kind × Nat)} (h : Ids W l) (h' : Ids W m) : Ids W (l ++ m) := by
  intro p hp
  rcases List.mem_append.1 hp with hp | hp
  · exact h p hp
  · exact h' p hp
theorem Ids.flat {l : List α} {f : α → List (Config.Kind × Nat)} (h : ∀ a ∈ l, Ids W (f a)) : Ids W (l.flatMap f) := by
  intro p hp
  obtain ⟨a, ha, hp⟩ := List.mem_flatMap.1 hp
  exact h a ha p hp

theorem ref_aclPort (c : Ctx V W e) : Val (AclText.aclPort e) (fun v => Ids W (portIds (some v))) := by
  unfold AclText.aclPort
  refine Val.alts_cons ?_ <| Val.alts_cons ?_ <| Val.alts_cons ?_ <| Val.alts_cons ?_ Val.alts_nil
  · exact Val.skip fun _ => Val.skip fun _ => Val.skip fun o => Val.pure Ids.nil
  · exact Val.skip fun _ => Val.skip fun _ => Val.bind (ref_refer c.portGroups) fun o ho => Val.pure (Ids.one ho)
  · exact Val.skip fun _ => Val.skip fun _ => Val.skip fun o => Val.pure Ids.nil
  · exact Val.skip fun _ => Val.skip fun _ => Val.skip fun _ => Val.skip fun _ => Val.skip fun _ => Val.skip fun _ => Val.pure Ids.nil

theorem ref_node (c : Ctx V W e) : Val (node e) (fun n => V n.host ∧ Ids W (portIds n.port)) := by
  unfold node
  refine Val.bind (ref_aclHost c) fun h hh => Val.bind (Val.opt (Val.skip fun _ => ref_aclPort c)) fun p hp => Val.act ?_
  intro a ha
  split at ha
  · cases ha
  · cases ha
    refine ⟨hh, ?_⟩
    cases p with
    | none => exact Ids.nil
    | some v => exact hp v rfl

theorem ref_aclProtocol (c : Ctx V W e) : Val (aclProtocol e) (fun v => Ids W (protoIds v)) := by
  unfold aclProtocol
  refine Val.alts_cons ?_ <| Val.alts_cons ?_ <| Val.alts_cons ?_ Val.alts_nil
  · exact Val.skip fun _ => Val.skip fun _ => Val.alt (Val.bind (ref_refer c.svcGroups) fun o ho => Val.pure (Ids.one ho))
      (Val.bind (ref_refer c.protoGroups) fun o ho => Val.pure (Ids.one ho))
  · exact Val.skip fun _ => Val.skip fun _ => Val.bind (ref_refer c.svcObjs) fun o ho => Val.pure (Ids.one ho)
  · exact Val.alt (Val.skip fun _ => Val.pure Ids.nil) (Val.skip fun _ => Val.skip fun _ => Val.pure Ids.nil)

theorem ref_icmpOptions (c : Ctx V W e) : Val (icmpOptions e) (fun v => Ids W (icmpIds v)) := by
  unfold icmpOptions
  refine Val.alts_cons ?_ <| Val.alts_cons ?_ <| Val.alts_cons ?_ Val.alts_nil
  · exact Val.skip fun _ => Val.skip fun _ => Val.skip fun _ => Val.bind (ref_refer c.icmpGroups) fun o ho => Val.pure (Ids.one ho)
  · exact Val.skip fun _ => Val.skip fun _ => Val.skip fun _ => Val.pure Ids.nil
  · exact Val.pure Ids.nil

theorem ref_aclOption (c : Ctx V W e) : Val (aclOption e) (fun v => Ids W (optIds v)) := by
  unfold aclOption
  refine Val.alts_cons ?_ <| Val.alts_cons ?_ <| Val.alts_cons ?_ <| Val.alts_cons ?_ Val.alts_nil
  · exact Val.skip fun _ => Val.skip fun _ => Val.pure Ids.nil
  · exact Val.skip fun _ => Val.skip fun _ => Val.bind (ref_refer c.timeRanges) fun o ho => Val.pure (Ids.one ho)
  · exact Val.skip fun _ => Val.pure Ids.nil
  · exact Val.pure Ids.nil

theorem ref_aclOptions (c : Ctx V W e) : Val (aclOptions e) (fun d => ∀ p ∈ d, Ids W (optIds p.2)) := by
  unfold aclOptions
  refine Val.bind (Val.many (Val.bind (ref_aclOption c) fun o ho => Val.skip fun _ => Val.pure ho)) fun l hl => Val.pure ?_
  have : ∀ (l : List Opt) (d : Dict String Opt), (∀ o ∈ l, Ids W (optIds o)) → (∀ p ∈ d, Ids W (optIds p.2)) →
      ∀ p ∈ l.foldl (fun d o => match o.key with | some k => dSet d k o | Option.none => d) d, Ids W (optIds p.2) := by
    intro l
    induction l with
    | nil => intro d _ hd; exact hd
    | cons o l ih =>
      intro d hl hd
      refine ih _ (fun x hx => hl x (by simp [hx])) ?_
      dsimp only
      split
      · exact val_dSet (V := fun o => Ids W (optIds o)) hd (hl o (by simp))
      · exact hd
  exact this l [] hl (by simp)

theorem ref_lineEnd (c : Ctx V W e) : Val (lineEnd e) (fun d => ∀ p ∈ d, Ids W (optIds p.2)) := by
  unfold lineEnd
  refine Val.bind (Val.opt (Val.skip fun _ => ref_aclOptions c)) fun o ho => Val.skip fun _ => Val.skip fun _ => Val.pure ?_
  cases o with
  | none => simp
  | some d => exact ho d rfl

/-- What is known of a rule. -/
def RuleRefs (V : Host → Prop) (W : Config.Kind → Nat → Prop) (r : PRule) : Prop :=
  V r.src.host ∧ V r.dst.host ∧ Ids W (idsOf (.rule r))

theorem rule_ids {r : PRule} (h1 : Ids W (protoIds r.protocol)) (h2 : Ids W (portIds r.src.port)) (h3 : Ids W (portIds r.dst.port))
    (h4 : Ids W (icmpIds r.icmp)) (h5 : ∀ p ∈ r.options, Ids W (optIds p.2)) : Ids W (idsOf (.rule r)) :=
  (((h1.append h2).append h3).append h4).append (Ids.flat h5)

theorem ref_ruleExtended (c : Ctx V W e) : Val (ruleExtended e) (RuleRefs V W) := by
  unfold ruleExtended
  refine Val.alt ?_ ?_
  · exact Val.skip fun i => Val.skip fun _ => Val.skip fun _ => Val.skip fun _ => Val.skip fun _ => Val.skip fun _ =>
      Val.skip fun _ => Val.bind (ref_aclHost c) fun a ha => Val.skip fun _ => Val.bind (ref_aclHost c) fun b hb =>
      Val.bind (ref_icmpOptions c) fun v hv => Val.bind (ref_lineEnd c) fun o ho =>
        Val.pure ⟨ha, hb, rule_ids Ids.nil Ids.nil Ids.nil hv ho⟩
  · exact Val.skip fun i => Val.skip fun _ => Val.skip fun _ => Val.skip fun _ => Val.skip fun _ => Val.bind (ref_aclProtocol c) fun p hp =>
      Val.skip fun _ => Val.bind (ref_node c) fun a ha => Val.skip fun _ => Val.bind (ref_node c) fun b hb =>
      Val.bind (ref_lineEnd c) fun o ho => Val.pure ⟨ha.1, hb.1, rule_ids hp ha.2 hb.2 Ids.nil ho⟩

theorem ref_ruleStandard (c : Ctx V W e) : Val (ruleStandard e) (RuleRefs V W) := by
  unfold ruleStandard
  exact Val.skip fun i => Val.skip fun _ => Val.skip fun _ => Val.skip fun _ => Val.skip fun _ =>
      Val.bind (ref_aclHost c) fun a ha => Val.skip fun _ => Val.skip fun _ =>
        Val.pure ⟨ha, c.any, rule_ids Ids.nil Ids.nil Ids.nil Ids.nil (by simp)⟩

theorem ref_ruleWebtype (c : Ctx V W e) : Val (ruleWebtype e) (RuleRefs V W) := by
  unfold ruleWebtype
  refine Val.alt ?_ ?_
  · exact Val.skip fun i => Val.skip fun _ => Val.skip fun _ => Val.skip fun _ => Val.skip fun _ => Val.skip fun _ =>
      Val.skip fun _ => Val.skip fun _ => Val.bind (ref_lineEnd c) fun o ho =>
        Val.pure ⟨c.any, c.any, rule_ids Ids.nil Ids.nil Ids.nil Ids.nil ho⟩
  · exact Val.skip fun i => Val.skip fun _ => Val.skip fun _ => Val.skip fun _ => Val.skip fun _ => Val.skip fun _ =>
      Val.skip fun _ => Val.bind (ref_node c) fun b hb => Val.bind (ref_lineEnd c) fun o ho =>
        Val.pure ⟨c.any, hb.1, rule_ids Ids.nil Ids.nil hb.2 Ids.nil ho⟩

theorem ref_remarked {p : P (Option PRule)} (hp : Val p (fun o => ∀ r, o = some r → RuleRefs V W r)) :
    Val (remarked e p) (fun o => ∀ r, o = some r → RuleRefs V W r) := by
  unfold remarked
  refine Val.skip fun rs => Val.bind hp fun o ho => Val.pure ?_
  intro r hr
  cases o with
  | none => cases hr
  | some x => cases hr; exact ho x rfl

theorem ref_accessList (c : Ctx V W e) : Val (accessList e) (fun o => ∀ r, o = some r → RuleRefs V W r) := by
  have some_ok : ∀ p : P PRule, Val p (RuleRefs V W) → Val (do let r ← p; pure (some r)) (fun o => ∀ r, o = some r → RuleRefs V W r) := by
    intro p hp
    exact Val.bind hp fun r hr => Val.pure (by intro x hx; cases hx; exact hr)
  have hx := some_ok _ (ref_ruleExtended c)
  have hs := some_ok _ (ref_ruleStandard c)
  have hw := some_ok _ (ref_ruleWebtype c)
  have ht : Val (do ruleEthertype e; pure none) (fun o : Option PRule => ∀ r, o = some r → RuleRefs V W r) :=
    Val.skip fun _ => Val.pure (by intro r h; cases h)
  unfold accessList
  exact Val.alts_cons (ref_remarked hx) <| Val.alts_cons hx <| Val.alts_cons (ref_remarked hs) <| Val.alts_cons hs <|
    Val.alts_cons (ref_remarked hw) <| Val.alts_cons hw <| Val.alts_cons (ref_remarked ht) <| Val.alts_cons ht Val.alts_nil

/-! ## NAT -/

/-- The node satisfies the predicate or is the keyword. -/
def NodeRef (V : Host → Prop) (x : NatCmd.Node') : Prop := ∀ h, x = .host h → V h

theorem nodeRef_host {h : Host} (hh : V h) : NodeRef V (.host h) := by intro x hx; cases hx; exact hh
theorem nodeRef_iface : NodeRef V .interface := by intro x hx; cases hx

theorem ref_netRef (c : Ctx V W s.env) : Val (netRef s) V := by
  unfold netRef
  exact Val.alt (ref_refer c.netObjs) (ref_refer c.netGroups)

theorem ref_patPool (c : Ctx V W s.env) : Val (patPool s) V := by
  unfold patPool
  exact Val.skip fun _ => Val.skip fun _ => Val.bind (Val.alt (ref_refer c.netGroups) (ref_refer c.netObjs)) fun h hh =>
    Val.skip fun _ => Val.pure hh

theorem ref_mappedAddress (c : Ctx V W s.env) {a : Addr} {m : Option (List Char)} : Val (act (mappedAddress a m)) V := by
  refine Val.act ?_
  intro h hh
  cases m with
  | none => cases hh; exact c.host a
  | some m =>
    simp only [mappedAddress] at hh
    split at hh
    · cases hh; exact c.net _
    · cases hh

theorem ref_natMapped (c : Ctx V W s.env) : Val (natMapped s) (fun x => NodeRef V x.1) := by
  unfold natMapped
  refine Val.alts_cons ?_ <| Val.alts_cons ?_ <| Val.alts_cons ?_ <| Val.alts_cons ?_ <| Val.alts_cons ?_ Val.alts_nil
  · exact Val.bind (ref_netRef c) fun h hh => Val.skip fun _ => Val.pure (nodeRef_host hh)
  · exact Val.skip fun a => Val.skip fun _ => Val.pure (nodeRef_host (c.host a))
  · exact Val.skip fun a => Val.skip fun _ => Val.bind (ref_mappedAddress c) fun h hh => Val.skip fun _ =>
      Val.pure (nodeRef_host hh)
  · exact Val.skip fun _ => Val.pure nodeRef_iface
  · exact Val.bind (ref_patPool c) fun h hh => Val.skip fun _ => Val.pure (nodeRef_host hh)

theorem ref_objectNat (c : Ctx V W s.env) : Val (objectNat s) (fun x => NodeRef V x.node) := by
  have hh : ∀ ty, Val (objectNatHead s ty) (fun x => NodeRef V x.2.1) := by
    intro ty
    unfold objectNatHead
    exact Val.skip fun _ => Val.skip fun _ => Val.skip fun _ => Val.skip fun _ => Val.skip fun _ => Val.skip fun _ =>
      Val.bind (ref_natMapped c) fun m hm => Val.pure hm
  unfold objectNat
  refine Val.alt ?_ ?_
  · refine Val.bind (hh _) fun x hx => ?_
    exact Val.skip fun _ => Val.pure hx
  · refine Val.bind (hh _) fun x hx => ?_
    exact Val.skip fun _ => Val.skip fun _ => Val.pure hx

theorem ref_mappedNode (c : Ctx V W s.env) : Val (mappedNode s) (NodeRef V) := by
  unfold mappedNode
  refine Val.alts_cons ?_ <| Val.alts_cons ?_ <| Val.alts_cons ?_ Val.alts_nil
  · exact Val.bind (ref_netRef c) fun h hh => Val.pure (nodeRef_host hh)
  · exact Val.skip fun _ => Val.pure nodeRef_iface
  · exact Val.skip fun _ => Val.pure (nodeRef_host c.any)

theorem ref_mappedDynamic (c : Ctx V W s.env) : Val (mappedDynamic s) (fun x => NodeRef V x.1) := by
  unfold mappedDynamic
  refine Val.alts_cons ?_ <| Val.alts_cons ?_ <| Val.alts_cons ?_ Val.alts_nil
  · exact Val.bind (ref_netRef c) fun h hh => Val.skip fun _ => Val.pure (nodeRef_host hh)
  · exact Val.skip fun _ => Val.pure nodeRef_iface
  · exact Val.bind (ref_patPool c) fun h hh => Val.skip fun _ => Val.pure (nodeRef_host hh)

theorem ref_realNode (c : Ctx V W s.env) : Val (realNode s) (NodeRef V) := by
  unfold realNode
  refine Val.alts_cons ?_ <| Val.alts_cons ?_ <| Val.alts_cons ?_ Val.alts_nil
  · exact Val.skip fun _ => Val.bind (ref_refer c.netObjs) fun h hh => Val.pure (nodeRef_host hh)
  · exact Val.skip fun _ => Val.bind (ref_refer c.netGroups) fun h hh => Val.pure (nodeRef_host hh)
  · exact Val.skip fun _ => Val.pure (nodeRef_host c.any)

theorem ref_natSrc (c : Ctx V W s.env) : Val (natSrc s) (fun x => NodeRef V x.real ∧ NodeRef V x.mapped) := by
  unfold natSrc
  refine Val.alt ?_ ?_
  · exact Val.skip fun _ => Val.skip fun _ => Val.skip fun _ => Val.skip fun _ => Val.bind (ref_realNode c) fun r hr =>
      Val.skip fun _ => Val.bind (ref_mappedDynamic c) fun m hm => Val.pure ⟨hr, hm⟩
  · exact Val.skip fun _ => Val.skip fun _ => Val.skip fun _ => Val.skip fun _ => Val.bind (ref_realNode c) fun r hr =>
      Val.skip fun _ => Val.bind (ref_mappedNode c) fun m hm => Val.pure ⟨hr, hm⟩

theorem ref_natDst (c : Ctx V W s.env) : Val (natDst s) (fun x => NodeRef V x.1 ∧ NodeRef V x.2) := by
  unfold natDst
  exact Val.skip fun _ => Val.skip fun _ => Val.skip fun _ => Val.skip fun _ => Val.bind (ref_mappedNode c) fun m hm =>
    Val.skip fun _ => Val.bind (ref_netRef c) fun r hr => Val.pure ⟨nodeRef_host hr, hm⟩

/-- What is known of an element: its hosts, the identities and services it refers to, and the source of the NAT entry of an object. -/
def ItemRefs (V : Host → Prop) (W : Config.Kind → Nat → Prop) (Z : NatCmd.Svc → Prop) (i : Item) : Prop :=
  (∀ h ∈ hostsOf i, V h) ∧ Ids W (idsOf i) ∧ (∀ v ∈ servicesOf i, Z v) ∧
  ∀ n l x d, i = .netObj n l (some x) d → x.real.src = some (.host (.obj n l))

theorem nodeHosts_ok {l : List (Option NatCmd.Node')} (h : ∀ x, some x ∈ l → NodeRef V x) : ∀ a ∈ nodeHosts l, V a := by
  intro a ha
  unfold nodeHosts at ha
  obtain ⟨x, hx, he⟩ := List.mem_filterMap.1 ha
  cases x with
  | none => cases he
  | some x =>
    cases x with
    | host b => cases he; exact h _ hx _ rfl
    | interface => cases he

theorem nodeRef_subst (c : Ctx V W e) {l : String} {x : NatCmd.Node'} (hx : NodeRef V x) : NodeRef V (NatCmd.subst l x) := by
  cases x with
  | host h => exact hx
  | interface => exact nodeRef_host (c.iface l)

/-- The service of a NAT command: the object behind one of the identities. -/
def SvcRef (W : Config.Kind → Nat → Prop) (s : St) (v : NatCmd.Svc) : Prop := ∃ o, W .svcObj o ∧ v = svcObject s o

theorem services_ref {ty : String} {sv : Option (NatCmd.Svc × NatCmd.Svc)} {p : Option NatCmd.Svc × Option NatCmd.Svc} {Z : NatCmd.Svc → Prop}
    (h : NatCmd.services ty sv = .ok p) (hz : ∀ x, sv = some x → Z x.1 ∧ Z x.2) : ∀ v ∈ p.1.toList ++ p.2.toList, Z v := by
  cases sv with
  | none => cases h; simp
  | some x =>
    obtain ⟨a, b⟩ := x
    obtain ⟨h1, h2⟩ := hz _ rfl
    simp only [NatCmd.services] at h
    split at h
    · split at h
      · cases h; intro v hv; simp at hv; rcases hv with rfl | rfl <;> assumption
      · split at h
        · cases h; intro v hv; simp at hv; rcases hv with rfl | rfl <;> assumption
        · cases h
    · split at h
      · cases h; intro v hv; simp at hv; rcases hv with rfl | rfl <;> assumption
      · cases h

theorem refs_twice (c : Ctx V W e) {Z : NatCmd.Svc → Prop} {x : NatCmd.Cmd} {n : NatCmd.Nat'} (h : NatCmd.twiceNat x = .ok (some n))
    (hs : NodeRef V x.src.real ∧ NodeRef V x.src.mapped) (hd : ∀ d, x.dst = some d → NodeRef V d.1 ∧ NodeRef V d.2)
    (hz : ∀ v, x.service = some v → Z v.1 ∧ Z v.2) : ItemRefs V W Z (.nat n) := by
  unfold NatCmd.twiceNat at h
  split at h
  · cases h
  · simp only [bind, Except.bind] at h
    split at h
    · cases h
    · rename_i p hp
      cases h
      refine ⟨?_, Ids.nil, services_ref hp hz, by intro _ _ _ _ h; cases h⟩
      refine nodeHosts_ok ?_
      intro y hy
      simp only [List.mem_cons, List.not_mem_nil, or_false, Option.some.injEq] at hy
      rcases hy with rfl | hy | rfl | hy
      · exact nodeRef_subst c hs.1
      · obtain ⟨d, e1, rfl⟩ := Option.map_eq_some_iff.1 hy.symm
        exact nodeRef_subst c (hd d e1).1
      · exact nodeRef_subst c hs.2
      · obtain ⟨d, e1, rfl⟩ := Option.map_eq_some_iff.1 hy.symm
        exact nodeRef_subst c (hd d e1).2

theorem refs_plain {Z : NatCmd.Svc → Prop} {i : Item} (h1 : hostsOf i = []) (h2 : idsOf i = []) (h3 : servicesOf i = [])
    (h4 : ∀ n l x d, i ≠ .netObj n l (some x) d) : ItemRefs V W Z i :=
  ⟨by rw [h1]; simp, by rw [h2]; exact Ids.nil, by rw [h3]; simp, fun n l x d h => absurd h (h4 n l x d)⟩

theorem ref_nat (c : Ctx V W s.env) : Val (nat s) (ItemRefs V W (SvcRef W s)) := by
  unfold nat
  refine Val.alt ?_ ?_
  · refine Val.skip fun _ => Val.skip fun _ => Val.skip fun _ => Val.skip fun _ => Val.skip fun _ => Val.bind (ref_natSrc c) fun src hsrc =>
      Val.bind (Val.opt (p := (do ws; natDst s)) (Val.skip fun _ => ref_natDst c)) fun dst hdst =>
      Val.bind (V := fun o : Option (NatCmd.Svc × NatCmd.Svc) => ∀ x, o = some x → SvcRef W s x.1 ∧ SvcRef W s x.2) (Val.opt ?_) fun sv hsv =>
      Val.skip fun _ => Val.skip fun _ => Val.skip fun _ => Val.bind (Val.act fun n hn => hn) fun n hn => Val.pure ?_
    · exact Val.skip fun _ => Val.skip fun _ => Val.skip fun _ => Val.bind (ref_refer c.svcObjs) fun a ha => Val.skip fun _ =>
        Val.bind (ref_refer c.svcObjs) fun b hb => Val.pure ⟨⟨a, ha, rfl⟩, ⟨b, hb, rfl⟩⟩
    · cases n with
      | none => exact refs_plain rfl rfl rfl (by intro _ _ _ _ h; cases h)
      | some n => exact refs_twice c hn hsrc hdst hsv
  · exact Val.skip fun _ => Val.skip fun _ => Val.skip fun _ => Val.skip fun _ => Val.skip fun _ => Val.skip fun _ =>
      Val.pure (refs_plain rfl rfl rfl (by intro _ _ _ _ h; cases h))

theorem nat_plain {P : Item → Prop} (h1 : ∀ n, P (.nat n)) (h2 : P .nothing) : Val (nat s) P := by
  unfold nat
  refine Val.alt ?_ ?_
  · refine Val.skip fun _ => Val.skip fun _ => Val.skip fun _ => Val.skip fun _ => Val.skip fun _ => Val.skip fun _ => Val.skip fun _ =>
      Val.skip fun _ => Val.skip fun _ => Val.skip fun _ => Val.skip fun _ => Val.skip fun n => Val.pure ?_
    cases n with
    | none => exact h2
    | some n => exact h1 n
  · exact Val.skip fun _ => Val.skip fun _ => Val.skip fun _ => Val.skip fun _ => Val.skip fun _ => Val.skip fun _ => Val.pure h2

/-! ## objects and groups -/

/-- What the parser keeps of a service object. -/
def svcEntry : Item → Option (Nat × String × Svc)
  | .svcObj o n v _ => some (o, n, v)
  | _ => none

/-- What the definitions before give for the tables of the parser. -/
structure Tracks (before : List Item) (s : St) : Prop where
  netObjs : ∀ n, dGet s.env.netObjs n = (firstOf netObjDef before n).map (.obj n)
  netGroups : ∀ n, dGet s.env.netGroups n = (lastOf netGroupDef before n).map (.group n)
  svcObjs : ∀ n, dGet s.env.svcObjs n = firstOf (idDef .svcObj) before n
  svcGroups : ∀ n, dGet s.env.svcGroups n = lastOf (idDef .svcGroup) before n
  portGroups : ∀ n, dGet s.env.portGroups n = lastOf (idDef .portGroup) before n
  icmpGroups : ∀ n, dGet s.env.icmpGroups n = lastOf (idDef .icmpGroup) before n
  protoGroups : ∀ n, dGet s.env.protoGroups n = lastOf (idDef .protoGroup) before n
  timeRanges : ∀ n, dGet s.env.timeRanges n = lastOf (idDef .timeRange) before n
  svcDefs : s.svcDefs = before.filterMap svcEntry
  next : ∀ i ∈ before, ∀ o, identOf i = some o → o < s.next
  distinct : (before.filterMap identOf).Nodup

theorem firstOf_snoc {f : Item → Option (String × α)} {l : List Item} {i : Item} {n : String} :
    firstOf f (l ++ [i]) n = match firstOf f l n with
      | some a => some a
      | none => match f i with
        | some (m, a) => if m = n then some a else none
        | none => none := by
  unfold firstOf
  rw [List.filterMap_append, List.find?_append]
  cases h : (List.filterMap f l).find? fun p => p.1 == n with
  | some x => simp
  | none =>
    cases hi : f i with
    | none => simp [hi]
    | some p =>
      obtain ⟨m, a⟩ := p
      by_cases hm : m = n <;> simp [hi, hm, List.find?]

theorem lastOf_snoc {f : Item → Option (String × α)} {l : List Item} {i : Item} {n : String} :
    lastOf f (l ++ [i]) n = match f i with
      | some (m, a) => if m = n then some a else lastOf f l n
      | none => lastOf f l n := by
  unfold lastOf firstOf
  rw [List.reverse_append, List.reverse_singleton, List.singleton_append]
  cases hi : f i with
  | none => simp [hi]
  | some p =>
    obtain ⟨m, a⟩ := p
    by_cases hm : m = n <;> simp [hi, hm, List.find?]

theorem Tracks.ctx {before : List Item} (t : Tracks before s) : Ctx (HostInForce before) (fun c o => ∃ n, inForce c before n = some o) s.env where
  leaf h h1 h2 := by cases h <;> first | trivial | exact absurd rfl (h1 _ _) | exact absurd rfl (h2 _ _)
  netObjs n v h := by
    rw [t.netObjs] at h
    obtain ⟨l, h1, rfl⟩ := Option.map_eq_some_iff.1 h
    exact h1
  netGroups n v h := by
    rw [t.netGroups] at h
    obtain ⟨l, h1, rfl⟩ := Option.map_eq_some_iff.1 h
    exact h1
  svcObjs n v h := ⟨n, (t.svcObjs n).symm.trans h⟩
  svcGroups n v h := ⟨n, (t.svcGroups n).symm.trans h⟩
  portGroups n v h := ⟨n, (t.portGroups n).symm.trans h⟩
  icmpGroups n v h := ⟨n, (t.icmpGroups n).symm.trans h⟩
  protoGroups n v h := ⟨n, (t.protoGroups n).symm.trans h⟩
  timeRanges n v h := ⟨n, (t.timeRanges n).symm.trans h⟩

/-- An element that defines nothing. -/
def Plain (i : Item) : Prop := netObjDef i = none ∧ netGroupDef i = none ∧ (∀ k, idDef k i = none) ∧ svcDef i = none ∧ identOf i = none

theorem svcDefs_plain {i : Item} (h : svcDef i = none) : svcEntry i = none := by
  cases i <;> first | rfl | cases h

theorem Tracks.plain {before : List Item} {s' : St} {i : Item} (t : Tracks before s) (h : Plain i)
    (he : s'.env.netObjs = s.env.netObjs ∧ s'.env.netGroups = s.env.netGroups ∧ s'.env.svcObjs = s.env.svcObjs ∧ s'.env.svcGroups = s.env.svcGroups ∧
      s'.env.portGroups = s.env.portGroups ∧ s'.env.icmpGroups = s.env.icmpGroups ∧ s'.env.protoGroups = s.env.protoGroups ∧
      s'.env.timeRanges = s.env.timeRanges ∧ s'.svcDefs = s.svcDefs ∧ s'.next = s.next) : Tracks (before ++ [i]) s' := by
  obtain ⟨h1, h2, h3, h4, h5⟩ := h
  obtain ⟨e1, e2, e3, e4, e5, e6, e7, e8, e9, e10⟩ := he
  constructor
  · intro n; rw [e1, t.netObjs, firstOf_snoc, h1]; cases firstOf netObjDef before n <;> rfl
  · intro n; rw [e2, t.netGroups, lastOf_snoc, h2]
  · intro n; rw [e3, t.svcObjs, firstOf_snoc, h3]; cases firstOf (idDef .svcObj) before n <;> rfl
  · intro n; rw [e4, t.svcGroups, lastOf_snoc, h3]
  · intro n; rw [e5, t.portGroups, lastOf_snoc, h3]
  · intro n; rw [e6, t.icmpGroups, lastOf_snoc, h3]
  · intro n; rw [e7, t.protoGroups, lastOf_snoc, h3]
  · intro n; rw [e8, t.timeRanges, lastOf_snoc, h3]
  · rw [e9, t.svcDefs, List.filterMap_append, List.filterMap_cons, svcDefs_plain h4]; simp
  · rw [e10]
    intro j hj o ho
    rcases List.mem_append.1 hj with hj | hj
    · exact t.next j hj o ho
    · rw [List.mem_singleton.1 hj, h5] at ho; cases ho
  · rw [List.filterMap_append, List.filterMap_cons, h5]; simpa using t.distinct

/-- One more definition with an identity. -/
theorem Tracks.ident {before : List Item} (t : Tracks before s) {i : Item} (h : identOf i = some s.next) :
    (∀ j ∈ before ++ [i], ∀ o, identOf j = some o → o < s.next + 1) ∧ ((before ++ [i]).filterMap identOf).Nodup := by
  constructor
  · intro j hj o ho
    rcases List.mem_append.1 hj with hj | hj
    · have := t.next j hj o ho; omega
    · rw [List.mem_singleton.1 hj, h] at ho; cases ho; omega
  · rw [List.filterMap_append, List.filterMap_cons, h, List.filterMap_nil, List.nodup_append]
    refine ⟨t.distinct, by simp, ?_⟩
    intro a ha b hb e
    obtain ⟨j, hj, ho⟩ := List.mem_filterMap.1 ha
    have := t.next j hj a ho
    rw [e, List.mem_singleton.1 hb] at this
    omega

theorem get_last {before : List Item} {d : Dict String β} {f : Item → Option (String × β)} {i : Item} {m : String} {v : β} (hf : f i = some (m, v))
    (h : ∀ n, dGet d n = lastOf f before n) (n : String) : dGet (dSet d m v) n = lastOf f (before ++ [i]) n := by
  rw [dGet_dSet, lastOf_snoc, hf, h]
  by_cases hm : m = n
  · subst hm; simp
  · have : n ≠ m := fun e => hm e.symm
    simp [hm, this]

theorem get_lastGroup {before : List Item} {d : Dict String Host} {i : Item} {m : String} {l : List Host} (hf : netGroupDef i = some (m, l))
    (h : ∀ n, dGet d n = (lastOf netGroupDef before n).map (.group n)) (n : String) :
    dGet (dSet d m (.group m l)) n = (lastOf netGroupDef (before ++ [i]) n).map (.group n) := by
  rw [dGet_dSet, lastOf_snoc, hf, h]
  by_cases hm : m = n
  · subst hm; simp
  · have : n ≠ m := fun e => hm e.symm
    simp [hm, this]

theorem get_first {before : List Item} {d : Dict String γ} {f : Item → Option (String × β)} {c : String → β → γ} {i : Item} {m : String} {v : β}
    (hf : f i = some (m, v)) (h : ∀ n, dGet d n = (firstOf f before n).map (c n)) (n : String) :
    dGet (if (dGet d m).isSome then d else dSet d m (c m v)) n = (firstOf f (before ++ [i]) n).map (c n) := by
  rw [firstOf_snoc, hf]
  by_cases hm : m = n
  · subst hm
    rw [h]
    cases hx : firstOf f before m with
    | some a => simp only [Option.map_some, Option.isSome_some, if_true]; rw [h, hx]; rfl
    | none => simp [dGet_dSet]
  · have hne : n ≠ m := fun e => hm e.symm
    split
    · rw [h]; cases firstOf f before n <;> simp [hm]
    · rw [dGet_dSet, if_neg hne, h]; cases firstOf f before n <;> simp [hm]

theorem rest_last {before : List Item} {d : Dict String γ} {f : Item → Option (String × β)} {c : String → β → γ} {i : Item} (hf : f i = none)
    (h : ∀ n, dGet d n = (lastOf f before n).map (c n)) (n : String) : dGet d n = (lastOf f (before ++ [i]) n).map (c n) := by
  rw [lastOf_snoc, hf, h]

theorem rest_first {before : List Item} {d : Dict String γ} {f : Item → Option (String × β)} {c : String → β → γ} {i : Item} (hf : f i = none)
    (h : ∀ n, dGet d n = (firstOf f before n).map (c n)) (n : String) : dGet d n = (firstOf f (before ++ [i]) n).map (c n) := by
  rw [firstOf_snoc, hf, h]
  cases firstOf f before n <;> rfl

theorem rest_last' {before : List Item} {d : Dict String β} {f : Item → Option (String × β)} {i : Item} (hf : f i = none)
    (h : ∀ n, dGet d n = lastOf f before n) (n : String) : dGet d n = lastOf f (before ++ [i]) n := by
  rw [lastOf_snoc, hf, h]

theorem rest_first' {before : List Item} {d : Dict String β} {f : Item → Option (String × β)} {i : Item} (hf : f i = none)
    (h : ∀ n, dGet d n = firstOf f before n) (n : String) : dGet d n = firstOf f (before ++ [i]) n := by
  rw [firstOf_snoc, hf, h]
  cases firstOf f before n <;> rfl

theorem rest_svc {before : List Item} {i : Item} {l : List (Nat × String × Svc)} (hf : svcDef i = none)
    (h : l = before.filterMap svcEntry) :
    l = (before ++ [i]).filterMap svcEntry := by
  rw [h, List.filterMap_append, List.filterMap_cons, svcDefs_plain hf]; simp

theorem rest_next {before : List Item} (t : Tracks before s) {i : Item} (h5 : identOf i = none) :
    (∀ j ∈ before ++ [i], ∀ o, identOf j = some o → o < s.next) ∧ ((before ++ [i]).filterMap identOf).Nodup := by
  constructor
  · intro j hj o ho
    rcases List.mem_append.1 hj with hj | hj
    · exact t.next j hj o ho
    · rw [List.mem_singleton.1 hj, h5] at ho; cases ho
  · rw [List.filterMap_append, List.filterMap_cons, h5]; simpa using t.distinct

/-! ## members -/

theorem ref_networkMember (c : Ctx V W e) : Val (networkMember e) V := by
  unfold networkMember
  refine Val.alts_cons ?_ <| Val.alts_cons ?_ <| Val.alts_cons ?_ <| Val.alts_cons ?_ <| Val.alts_cons ?_ <| Val.alts_cons ?_ Val.alts_nil
  · exact Val.skip fun _ => Val.skip fun _ => Val.skip fun _ => Val.skip fun _ => Val.skip fun a => Val.skip fun _ => Val.pure (c.host a)
  · exact Val.skip fun _ => Val.skip fun _ => Val.skip fun _ => Val.skip fun _ => Val.bind (ref_refer c.netObjs) fun h hh =>
      Val.skip fun _ => Val.pure hh
  · exact Val.skip fun _ => Val.skip fun _ => Val.skip fun _ => Val.skip fun _ => Val.skip fun _ => Val.skip fun _ => Val.skip fun n => Val.pure (c.net n)
  · exact Val.skip fun _ => Val.skip fun _ => Val.skip fun _ => Val.skip fun _ => Val.skip fun _ => Val.skip fun _ => Val.skip fun n => Val.pure (c.net n)
  · exact Val.skip fun _ => Val.skip fun _ => Val.bind (ref_refer c.netGroups) fun h hh => Val.skip fun _ => Val.pure hh
  · exact Val.act fun _ h => by cases h

theorem ref_portMember (c : Ctx V W e) : Val (portMember e) (fun x => ∀ o, x = some (.group o) → W .portGroup o) := by
  unfold portMember
  refine Val.alts_cons ?_ <| Val.alts_cons ?_ <| Val.alts_cons ?_ <| Val.alts_cons ?_ Val.alts_nil
  · exact Val.skip fun _ => Val.skip fun _ => Val.skip fun _ => Val.skip fun _ => Val.skip fun _ => Val.skip fun _ =>
      Val.pure (by intro o h; cases h)
  · exact Val.skip fun _ => Val.skip fun _ => Val.skip fun _ => Val.skip fun _ => Val.skip fun _ => Val.skip fun _ => Val.skip fun _ =>
      Val.skip fun _ => Val.skip fun _ => Val.pure (by intro o h; cases h)
  · exact Val.skip fun _ => Val.skip fun _ => Val.bind (ref_refer c.portGroups) fun a ha => Val.skip fun _ =>
      Val.pure (by intro o h; cases h; exact ha)
  · exact Val.pure (by intro o h; cases h)

theorem ref_serviceMember (c : Ctx V W e) :
    Val (serviceMember e) (fun x => (∀ o, x = .group o → W .svcGroup o) ∧ (∀ o, x = .obj o → W .svcObj o)) := by
  unfold serviceMember
  refine Val.alts_cons ?_ <| Val.alts_cons ?_ <| Val.alts_cons ?_ <| Val.alts_cons ?_ <| Val.alts_cons ?_ <| Val.alts_cons ?_ Val.alts_nil
  · exact Val.skip fun _ => Val.skip fun _ => Val.skip fun _ => Val.skip fun _ => Val.skip fun _ => Val.pure (by simp)
  · exact Val.skip fun _ => Val.skip fun _ => Val.skip fun _ => Val.skip fun _ => Val.pure (by simp)
  · exact Val.skip fun _ => Val.skip fun _ => Val.skip fun _ => Val.skip fun _ => Val.skip fun _ => Val.pure (by simp)
  · exact Val.skip fun _ => Val.skip fun _ => Val.skip fun _ => Val.skip fun _ => Val.bind (ref_refer c.svcObjs) fun a ha =>
      Val.skip fun _ => Val.skip fun _ => Val.pure (by simp [ha])
  · exact Val.skip fun _ => Val.skip fun _ => Val.bind (ref_refer c.svcGroups) fun a ha =>
      Val.skip fun _ => Val.skip fun _ => Val.pure (by simp [ha])
  · exact Val.act fun _ h => by cases h

theorem ref_icmpMember (c : Ctx V W e) : Val (icmpMember e) (fun x => ∀ o, x = .group o → W .icmpGroup o) := by
  unfold icmpMember
  refine Val.alts_cons ?_ <| Val.alts_cons ?_ <| Val.alts_cons ?_ Val.alts_nil
  · exact Val.skip fun _ => Val.skip fun _ => Val.skip fun _ => Val.skip fun _ => Val.pure (by simp)
  · exact Val.skip fun _ => Val.skip fun _ => Val.bind (ref_refer c.icmpGroups) fun a ha => Val.skip fun _ => Val.pure (by simp [ha])
  · exact Val.act fun _ h => by cases h

theorem ref_protocolMember (c : Ctx V W e) : Val (protocolMember e) (fun x => ∀ o, x = .group o → W .protoGroup o) := by
  unfold protocolMember
  refine Val.alts_cons ?_ <| Val.alts_cons ?_ <| Val.alts_cons ?_ Val.alts_nil
  · exact Val.skip fun _ => Val.skip fun _ => Val.skip fun _ => Val.skip fun _ => Val.pure (by simp)
  · exact Val.skip fun _ => Val.skip fun _ => Val.bind (ref_refer c.protoGroups) fun a ha => Val.skip fun _ => Val.pure (by simp [ha])
  · exact Val.act fun _ h => by cases h

theorem addAll_mem {l : List (Option α)} {m : List α} (h : addAll l = .ok m) : ∀ a ∈ m, some a ∈ l := by
  cases l with
  | nil => cases h; simp
  | cons x l =>
    cases x with
    | none => cases h
    | some x =>
      cases h
      intro a ha
      rcases List.mem_cons.1 ha with rfl | ha
      · simp
      · obtain ⟨y, hy, e⟩ := List.mem_filterMap.1 ha
        cases y with
        | none => cases e
        | some y => cases e; exact List.mem_cons_of_mem _ hy

/-! ## one command -/

/-- What is known of a command: the element refers to what is in force, and the tables follow the elements. -/
def Out (before : List Item) (s : St) (x : Item × St) : Prop :=
  ItemRefs (HostInForce before) (fun c o => ∃ n, inForce c before n = some o)
    (SvcRef (fun c o => ∃ n, inForce c before n = some o) s) x.1 ∧ Tracks (before ++ [x.1]) x.2

variable {before : List Item}

theorem natObject_refs {Z : NatCmd.Svc → Prop} (c : Ctx V W e) {n : String} {l : List Host} {b : Option NatCmd.ObjNat} {d : Option (List Char)}
    (hn : ∀ a, b = some a → NodeRef V a.node) : ItemRefs V W Z (.netObj n l (NatCmd.objectType ⟨n, some l, b⟩).2 d) := by
  cases b with
  | none => exact refs_plain rfl rfl rfl (by intro _ _ _ _ h; cases h)
  | some a =>
    refine ⟨?_, Ids.nil, (by intro v hv; cases hv), ?_⟩
    · show ∀ h ∈ nodeHosts _, V h
      refine nodeHosts_ok ?_
      intro y hy
      simp only [List.mem_cons, List.not_mem_nil, or_false, Option.some.injEq, NatCmd.networkObjectNat] at hy
      rcases hy with rfl | rfl | rfl
      · exact nodeRef_host c.any
      · exact nodeRef_subst c (hn a rfl)
      · exact nodeRef_host c.any
    · intro _ _ _ _ h
      cases h
      rfl

theorem Tracks.netObj (t : Tracks before s) (n : String) (l : List Host) (x : Option NatCmd.Nat') (d : Option (List Char)) :
    Tracks (before ++ [.netObj n l x d]) { s with env :=
      if (dGet s.env.netObjs n).isSome then s.env else { s.env with netObjs := dSet s.env.netObjs n (.obj n l) } } := by
  obtain ⟨h1, h2⟩ := rest_next t (i := .netObj n l x d) rfl
  have hg := get_first (f := netObjDef) (i := .netObj n l x d) (c := Host.obj) rfl t.netObjs
  refine ⟨?_, ?_, ?_, ?_, ?_, ?_, ?_, ?_, rest_svc rfl t.svcDefs, h1, h2⟩
  · intro m
    rw [← hg m]
    dsimp only
    split <;> rfl
  all_goals dsimp only
  all_goals intro m
  · split <;> exact rest_last (c := Host.group) rfl t.netGroups m
  · split <;> exact rest_first' (f := idDef .svcObj) rfl t.svcObjs m
  · split <;> exact rest_last' (f := idDef .svcGroup) rfl t.svcGroups m
  · split <;> exact rest_last' (f := idDef .portGroup) rfl t.portGroups m
  · split <;> exact rest_last' (f := idDef .icmpGroup) rfl t.icmpGroups m
  · split <;> exact rest_last' (f := idDef .protoGroup) rfl t.protoGroups m
  · split <;> exact rest_last' (f := idDef .timeRange) rfl t.timeRanges m

theorem get_first' {d : Dict String β} {f : Item → Option (String × β)} {i : Item} {m : String} {v : β}
    (hf : f i = some (m, v)) (h : ∀ n, dGet d n = firstOf f before n) (n : String) :
    dGet (if (dGet d m).isSome then d else dSet d m v) n = firstOf f (before ++ [i]) n := by
  have := get_first (before := before) (c := fun _ x => x) hf (fun n => (h n).trans (by simp)) n
  simpa using this

theorem Tracks.svcObj (t : Tracks before s) (n : String) (v : Svc) (d : Option (List Char)) :
    Tracks (before ++ [.svcObj s.next n v d]) ⟨
      if (dGet s.env.svcObjs n).isSome then s.env else { s.env with svcObjs := dSet s.env.svcObjs n s.next },
      s.ifaces, s.svcDefs ++ [(s.next, n, v)], s.next + 1⟩ := by
  obtain ⟨h1, h2⟩ := t.ident (i := .svcObj s.next n v d) rfl
  have hg := get_first' (f := idDef .svcObj) (i := .svcObj s.next n v d) rfl t.svcObjs
  refine ⟨?_, ?_, ?_, ?_, ?_, ?_, ?_, ?_, ?_, h1, h2⟩
  all_goals dsimp only
  all_goals try intro m
  · split <;> exact rest_first (c := Host.obj) rfl t.netObjs m
  · split <;> exact rest_last (c := Host.group) rfl t.netGroups m
  · rw [← hg m]
    split <;> rfl
  · split <;> exact rest_last' (f := idDef .svcGroup) rfl t.svcGroups m
  · split <;> exact rest_last' (f := idDef .portGroup) rfl t.portGroups m
  · split <;> exact rest_last' (f := idDef .icmpGroup) rfl t.icmpGroups m
  · split <;> exact rest_last' (f := idDef .protoGroup) rfl t.protoGroups m
  · split <;> exact rest_last' (f := idDef .timeRange) rfl t.timeRanges m
  · rw [t.svcDefs, List.filterMap_append]; rfl

theorem Tracks.netGroup (t : Tracks before s) (n : String) (l : List Host) (d : Option (List Char)) :
    Tracks (before ++ [.netGroup n l d]) { s with env := { s.env with netGroups := dSet s.env.netGroups n (.group n l) } } := by
  obtain ⟨h1, h2⟩ := rest_next t (i := .netGroup n l d) rfl
  exact ⟨rest_first (c := Host.obj) rfl t.netObjs, get_lastGroup rfl t.netGroups, rest_first' (f := idDef .svcObj) rfl t.svcObjs,
    rest_last' rfl t.svcGroups, rest_last' rfl t.portGroups, rest_last' rfl t.icmpGroups, rest_last' rfl t.protoGroups,
    rest_last' rfl t.timeRanges, rest_svc rfl t.svcDefs, h1, h2⟩

theorem Tracks.svcGroup (t : Tracks before s) (n : String) (l : List SvcMember) (d : Option (List Char)) :
    Tracks (before ++ [.svcGroup s.next n l d])
      { s with env := { s.env with svcGroups := dSet s.env.svcGroups n s.next }, next := s.next + 1 } := by
  obtain ⟨h1, h2⟩ := t.ident (i := .svcGroup s.next n l d) rfl
  exact ⟨rest_first (c := Host.obj) rfl t.netObjs, rest_last (c := Host.group) rfl t.netGroups, rest_first' (f := idDef .svcObj) rfl t.svcObjs,
    get_last rfl t.svcGroups, rest_last' rfl t.portGroups, rest_last' rfl t.icmpGroups, rest_last' rfl t.protoGroups,
    rest_last' rfl t.timeRanges, rest_svc rfl t.svcDefs, h1, h2⟩

theorem Tracks.portGroup (t : Tracks before s) (n p : String) (l : List PortMember) (d : Option (List Char)) :
    Tracks (before ++ [.portGroup s.next n p l d])
      { s with env := { s.env with portGroups := dSet s.env.portGroups n s.next }, next := s.next + 1 } := by
  obtain ⟨h1, h2⟩ := t.ident (i := .portGroup s.next n p l d) rfl
  exact ⟨rest_first (c := Host.obj) rfl t.netObjs, rest_last (c := Host.group) rfl t.netGroups, rest_first' (f := idDef .svcObj) rfl t.svcObjs,
    rest_last' rfl t.svcGroups, get_last rfl t.portGroups, rest_last' rfl t.icmpGroups, rest_last' rfl t.protoGroups,
    rest_last' rfl t.timeRanges, rest_svc rfl t.svcDefs, h1, h2⟩

theorem Tracks.icmpGroup (t : Tracks before s) (n : String) (l : List IcmpMember) (d : Option (List Char)) :
    Tracks (before ++ [.icmpGroup s.next n l d])
      { s with env := { s.env with icmpGroups := dSet s.env.icmpGroups n s.next }, next := s.next + 1 } := by
  obtain ⟨h1, h2⟩ := t.ident (i := .icmpGroup s.next n l d) rfl
  exact ⟨rest_first (c := Host.obj) rfl t.netObjs, rest_last (c := Host.group) rfl t.netGroups, rest_first' (f := idDef .svcObj) rfl t.svcObjs,
    rest_last' rfl t.svcGroups, rest_last' rfl t.portGroups, get_last rfl t.icmpGroups, rest_last' rfl t.protoGroups,
    rest_last' rfl t.timeRanges, rest_svc rfl t.svcDefs, h1, h2⟩

theorem Tracks.protoGroup (t : Tracks before s) (n : String) (l : List ProtoMember) (d : Option (List Char)) :
    Tracks (before ++ [.protoGroup s.next n l d])
      { s with env := { s.env with protoGroups := dSet s.env.protoGroups n s.next }, next := s.next + 1 } := by
  obtain ⟨h1, h2⟩ := t.ident (i := .protoGroup s.next n l d) rfl
  exact ⟨rest_first (c := Host.obj) rfl t.netObjs, rest_last (c := Host.group) rfl t.netGroups, rest_first' (f := idDef .svcObj) rfl t.svcObjs,
    rest_last' rfl t.svcGroups, rest_last' rfl t.portGroups, rest_last' rfl t.icmpGroups, get_last rfl t.protoGroups,
    rest_last' rfl t.timeRanges, rest_svc rfl t.svcDefs, h1, h2⟩

theorem Tracks.timeRange (t : Tracks before s) (n : String) (l : List TimeObj) :
    Tracks (before ++ [.timeRange s.next n l])
      { s with env := { s.env with timeRanges := dSet s.env.timeRanges n s.next }, next := s.next + 1 } := by
  obtain ⟨h1, h2⟩ := t.ident (i := .timeRange s.next n l) rfl
  exact ⟨rest_first (c := Host.obj) rfl t.netObjs, rest_last (c := Host.group) rfl t.netGroups, rest_first' (f := idDef .svcObj) rfl t.svcObjs,
    rest_last' rfl t.svcGroups, rest_last' rfl t.portGroups, rest_last' rfl t.icmpGroups, rest_last' rfl t.protoGroups,
    get_last rfl t.timeRanges, rest_svc rfl t.svcDefs, h1, h2⟩

theorem ref_objectNetwork (t : Tracks before s) : Val (objectNetwork s) (Out before s) := by
  unfold objectNetwork
  dsimp only
  refine Val.skip fun _ => Val.skip fun _ => Val.skip fun n =>
    Val.bind (V := fun o : Option (ObjArgs × Option NatCmd.ObjNat) => ∀ a, o = some a → ∀ x, a.2 = some x → NodeRef (HostInForce before) x.node)
      (Val.opt ?_) fun args hargs =>
    Val.bind (V := fun o : Option NatCmd.ObjNat => ∀ a, o = some a → NodeRef (HostInForce before) a.node)
      (Val.opt (Val.skip fun _ => ref_objectNat t.ctx))
      fun nt hnt => Val.skip fun d => Val.skip fun l => Val.pure ?_
  · exact Val.skip fun _ => Val.skip fun _ => Val.alt (Val.skip fun _ => Val.pure (by intro x h; cases h))
      (Val.bind (ref_objectNat t.ctx) fun x hx => Val.pure (by intro y h; cases h; exact hx))
  · refine ⟨natObject_refs t.ctx ?_, t.netObj _ _ _ _⟩
    intro a ha
    split at ha
    · cases ha
      exact hargs _ rfl _ rfl
    · exact hnt a ha

theorem ref_objectService (t : Tracks before s) : Val (objectService s) (Out before s) := by
  unfold objectService
  dsimp only
  exact Val.skip fun _ => Val.skip fun _ => Val.skip fun _ => Val.skip fun _ => Val.skip fun _ => Val.skip fun _ =>
    Val.pure ⟨refs_plain rfl rfl rfl (by intro _ _ _ _ h; cases h), t.svcObj _ _ _⟩

theorem refs_ids {Z : NatCmd.Svc → Prop} {i : Item} (h1 : hostsOf i = []) (h2 : Ids W (idsOf i)) (h3 : servicesOf i = [])
    (h4 : ∀ n l x d, i ≠ .netObj n l (some x) d) : ItemRefs V W Z i :=
  ⟨by rw [h1]; simp, h2, by rw [h3]; simp, fun n l x d h => absurd h (h4 n l x d)⟩

theorem ref_objectGroup (t : Tracks before s) : Val (objectGroup s) (Out before s) := by
  unfold objectGroup objectGroupType
  dsimp only
  refine Val.skip fun _ => Val.skip fun _ => Val.alts_cons ?_ <| Val.alts_cons ?_ <| Val.alts_cons ?_ <| Val.alts_cons ?_ <|
    Val.alts_cons ?_ Val.alts_nil
  · refine Val.skip fun _ => Val.bind (val_groupBody (ref_networkMember t.ctx)) fun ⟨n, d, l⟩ hl => Val.pure ⟨?_, t.netGroup _ _ _⟩
    exact ⟨hl, Ids.nil, (by intro v hv; cases hv), by intro _ _ _ _ h; cases h⟩
  · refine Val.skip fun _ => Val.skip fun _ => Val.skip fun _ => Val.skip fun _ => Val.skip fun _ => Val.skip fun _ => Val.skip fun _ =>
      Val.skip fun _ => Val.bind (Val.many (p := (do sp; portMember s.env)) (Val.skip fun _ => ref_portMember t.ctx)) fun l hl =>
      Val.bind (Val.act fun m hm => hm) fun m hm => Val.pure ⟨?_, t.portGroup _ _ _ _⟩
    refine refs_ids rfl (Ids.flat ?_) rfl (by intro _ _ _ _ h; cases h)
    intro a ha
    cases a with
    | group o => exact Ids.one (hl _ (addAll_mem hm _ ha) o rfl)
    | port => exact Ids.nil
    | range => exact Ids.nil
  · refine Val.skip fun _ => Val.bind (val_groupBody (ref_serviceMember t.ctx)) fun ⟨n, d, l⟩ hl => Val.pure ⟨?_, t.svcGroup _ _ _⟩
    refine refs_ids rfl (Ids.flat ?_) rfl (by intro _ _ _ _ h; cases h)
    intro a ha
    cases a with
    | group o => exact Ids.one ((hl _ ha).1 o rfl)
    | obj o => exact Ids.one ((hl _ ha).2 o rfl)
    | svc => exact Ids.nil
  · refine Val.skip fun _ => Val.bind (val_groupBody (ref_icmpMember t.ctx)) fun ⟨n, d, l⟩ hl => Val.pure ⟨?_, t.icmpGroup _ _ _⟩
    refine refs_ids rfl (Ids.flat ?_) rfl (by intro _ _ _ _ h; cases h)
    intro a ha
    cases a with
    | group o => exact Ids.one (hl _ ha o rfl)
    | icmp => exact Ids.nil
  · refine Val.skip fun _ => Val.bind (val_groupBody (ref_protocolMember t.ctx)) fun ⟨n, d, l⟩ hl => Val.pure ⟨?_, t.protoGroup _ _ _⟩
    refine refs_ids rfl (Ids.flat ?_) rfl (by intro _ _ _ _ h; cases h)
    intro a ha
    cases a with
    | group o => exact Ids.one (hl _ ha o rfl)
    | protocol => exact Ids.nil

/-- A rule that learns nothing: what it refers to, and that it defines nothing. -/
theorem ref_keep {p : P Item} (t : Tracks before s)
    (hp : Val p (fun i => ItemRefs (HostInForce before) (fun c o => ∃ n, inForce c before n = some o)
      (SvcRef (fun c o => ∃ n, inForce c before n = some o) s) i ∧ Plain i)) : Val (keep s p) (Out before s) :=
  Val.bind hp fun _ hi => Val.pure ⟨hi.1, t.plain hi.2 ⟨rfl, rfl, rfl, rfl, rfl, rfl, rfl, rfl, rfl, rfl⟩⟩

theorem plain_nothing : Plain .nothing := ⟨rfl, rfl, fun k => by cases k <;> rfl, rfl, rfl⟩

theorem ref_command (t : Tracks before s) : Val (command s) (Out before s) := by
  have triv : ∀ {i : Item}, hostsOf i = [] → idsOf i = [] → servicesOf i = [] → (∀ n l x d, i ≠ .netObj n l (some x) d) → Plain i →
      (ItemRefs (HostInForce before) (fun c o => ∃ n, inForce c before n = some o)
        (SvcRef (fun c o => ∃ n, inForce c before n = some o) s) i ∧ Plain i) := fun h1 h2 h3 h4 h5 => ⟨refs_plain h1 h2 h3 h4, h5⟩
  have same : ∀ {i : Item} {s' : St}, hostsOf i = [] → idsOf i = [] → servicesOf i = [] → (∀ n l x d, i ≠ .netObj n l (some x) d) → Plain i →
      s'.env.netObjs = s.env.netObjs ∧ s'.env.netGroups = s.env.netGroups ∧ s'.env.svcObjs = s.env.svcObjs ∧ s'.env.svcGroups = s.env.svcGroups ∧
      s'.env.portGroups = s.env.portGroups ∧ s'.env.icmpGroups = s.env.icmpGroups ∧ s'.env.protoGroups = s.env.protoGroups ∧
      s'.env.timeRanges = s.env.timeRanges ∧ s'.svcDefs = s.svcDefs ∧ s'.next = s.next → Out before s (i, s') :=
    fun h1 h2 h3 h4 h5 h6 => ⟨refs_plain h1 h2 h3 h4, t.plain h5 h6⟩
  unfold command
  dsimp only
  refine Val.alts_cons (ref_keep t ?_) <| Val.alts_cons (ref_keep t ?_) <| Val.alts_cons (ref_keep t ?_) <|
    Val.alts_cons ?_ <| Val.alts_cons ?_ <| Val.alts_cons ?_ <|
    Val.alts_cons ?_ <| Val.alts_cons (ref_objectGroup t) <| Val.alts_cons (ref_keep t ?_) <|
    Val.alts_cons (ref_keep t ?_) <| Val.alts_cons (ref_keep t ?_) <| Val.alts_cons (ref_keep t ?_) <|
    Val.alts_cons (ref_keep t ?_) <| Val.alts_cons (ref_keep t ?_) Val.alts_nil
  · exact Val.skip fun _ => Val.skip fun _ => Val.pure (triv rfl rfl rfl (by intro _ _ _ _ h; cases h) ⟨rfl, rfl, fun k => by cases k <;> rfl, rfl, rfl⟩)
  · exact Val.skip fun _ => Val.skip fun _ => Val.skip fun _ => Val.skip fun _ =>
      Val.pure (triv rfl rfl rfl (by intro _ _ _ _ h; cases h) ⟨rfl, rfl, fun k => by cases k <;> rfl, rfl, rfl⟩)
  · exact Val.skip fun _ => Val.skip fun _ => Val.skip fun _ =>
      Val.pure (triv rfl rfl rfl (by intro _ _ _ _ h; cases h) ⟨rfl, rfl, fun k => by cases k <;> rfl, rfl, rfl⟩)
  · unfold interface
    exact Val.skip fun _ => Val.skip fun _ => Val.skip fun _ => Val.skip fun _ => Val.skip fun _ => Val.skip fun _ =>
      Val.pure (same rfl rfl rfl (by intro _ _ _ _ h; cases h) ⟨rfl, rfl, fun k => by cases k <;> rfl, rfl, rfl⟩
        ⟨rfl, rfl, rfl, rfl, rfl, rfl, rfl, rfl, rfl, rfl⟩)
  · unfold name
    exact Val.skip fun _ => Val.skip fun _ => Val.skip fun _ => Val.skip fun _ => Val.skip fun _ =>
      Val.skip fun _ => Val.skip fun _ => Val.pure (same rfl rfl rfl (by intro _ _ _ _ h; cases h) ⟨rfl, rfl, fun k => by cases k <;> rfl, rfl, rfl⟩
        ⟨rfl, rfl, rfl, rfl, rfl, rfl, rfl, rfl, rfl, rfl⟩)
  · unfold FwsmText.timeRange
    exact Val.skip fun _ => Val.skip fun _ => Val.skip fun _ => Val.skip fun _ => Val.skip fun _ => Val.skip fun _ =>
      Val.pure ⟨refs_plain rfl rfl rfl (by intro _ _ _ _ h; cases h), t.timeRange _ _⟩
  · unfold object
    exact Val.skip fun _ => Val.skip fun _ => Val.alt (ref_objectNetwork t) (ref_objectService t)
  · refine Val.bind (ref_accessList t.ctx) fun r hr => Val.pure ?_
    cases r with
    | none => exact triv rfl rfl rfl (by intro _ _ _ _ h; cases h) plain_nothing
    | some r =>
      obtain ⟨h1, h2, h3⟩ := hr r rfl
      refine ⟨⟨?_, h3, (by intro v hv; cases hv), by intro _ _ _ _ h; cases h⟩, ⟨rfl, rfl, fun k => by cases k <;> rfl, rfl, rfl⟩⟩
      intro a ha
      simp only [hostsOf, List.mem_cons, List.not_mem_nil, or_false] at ha
      rcases ha with rfl | rfl
      · exact h1
      · exact h2
  · exact Val.skip fun _ => Val.pure (triv rfl rfl rfl (by intro _ _ _ _ h; cases h) ⟨rfl, rfl, fun k => by cases k <;> rfl, rfl, rfl⟩)
  · unfold accessGroup
    refine Val.alt ?_ ?_
    · exact Val.skip fun _ => Val.skip fun _ => Val.skip fun _ => Val.skip fun _ => Val.skip fun _ => Val.skip fun _ => Val.skip fun _ => Val.skip fun _ => Val.skip fun _ => Val.skip fun _ => Val.skip fun _ =>
        Val.pure (triv rfl rfl rfl (by intro _ _ _ _ h; cases h) ⟨rfl, rfl, fun k => by cases k <;> rfl, rfl, rfl⟩)
    · exact Val.skip fun _ => Val.skip fun _ => Val.skip fun _ => Val.skip fun _ => Val.skip fun _ => Val.skip fun _ => Val.skip fun _ =>
        Val.pure (triv rfl rfl rfl (by intro _ _ _ _ h; cases h) plain_nothing)
  · intro tx i r hi
    refine ⟨ref_nat t.ctx tx i r hi, ?_⟩
    exact nat_plain (P := Plain) (fun n => ⟨rfl, rfl, fun k => by cases k <;> rfl, rfl, rfl⟩) plain_nothing tx i r hi
  · unfold ignored
    refine Val.alts ?_
    intro p hp
    obtain ⟨kt, -, rfl⟩ := List.mem_map.1 hp
    exact Val.skip fun _ => Val.skip fun _ => Val.pure (triv rfl rfl rfl (by intro _ _ _ _ h; cases h) plain_nothing)
  · exact Val.skip fun _ => Val.pure (triv rfl rfl rfl (by intro _ _ _ _ h; cases h) plain_nothing)

/-! ## all commands -/

/-- An invariant of the tables and the elements so far. -/
theorem commands_hist {S : List Item → St → Prop} {I : List Item → St → Item → Prop}
    (h : ∀ before s, S before s → Val (command s) (fun x => I before s x.1 ∧ S (before ++ [x.1]) x.2)) :
    ∀ (n : Nat) (before : List Item) (s s' : St) (t r : Text) (l : List Item), t.length = n → S before s → commands s t = .ok (l, s') r →
      (∀ k i, l[k]? = some i → ∃ s1, S (before ++ l.take k) s1 ∧ I (before ++ l.take k) s1 i) ∧ S (before ++ l) s' := by
  intro n
  induction n using Nat.strongRecOn with
  | _ n ih =>
    intro before s s' t r l hn hS hc
    rw [commands] at hc
    split at hc
    · rename_i i s1 r1 h1
      obtain ⟨hi, hs1⟩ := h before s hS _ _ _ h1
      split at hc
      · rename_i hl
        split at hc
        · rename_i l2 s2 u h2
          cases hc
          obtain ⟨h3, h4⟩ := ih r1.length (by omega) (before ++ [i]) s1 _ r1 _ _ rfl hs1 h2
          refine ⟨?_, by simpa using h4⟩
          intro k x hx
          cases k with
          | zero => cases hx; exact ⟨s, by simpa using hS, by simpa using hi⟩
          | succ k => simpa using h3 k x hx
        · cases hc
        · cases hc
      · cases hc; exact ⟨by simp, by simpa using hS⟩
    · cases hc; exact ⟨by simp, by simpa using hS⟩
    · cases hc

theorem tracks_new : Tracks [] { env := { guard := g } } := by
  constructor <;> first | (intros; rfl) | (intro i hi; cases hi) | simp

theorem parseFile_refs {t r : Text} {items : List Item} (h : parseFile g t = .ok items r) :
    (∀ k i, items[k]? = some i → ∃ s1, Tracks (items.take k) s1 ∧ ItemRefs (HostInForce (items.take k)) (fun c o => ∃ n, inForce c (items.take k) n = some o)
      (SvcRef (fun c o => ∃ n, inForce c (items.take k) n = some o) s1) i) ∧ ∃ s', Tracks items s' := by
  unfold parseFile at h
  split at h
  · rename_i l s' hc
    split at h
    · cases h
    · cases h
      obtain ⟨h1, h2⟩ := commands_hist (S := Tracks) (I := fun b s i => ItemRefs (HostInForce b) (fun c o => ∃ n, inForce c b n = some o)
        (SvcRef (fun c o => ∃ n, inForce c b n = some o) s) i) (fun b s ht => ref_command ht) _ [] _ _ _ _ _ rfl tracks_new hc
      exact ⟨fun k i hi => by simpa using h1 k i hi, s', by simpa using h2⟩
  · cases h
  · cases h
  · cases h

theorem find_entry {l : List Item} {o : Nat} {n : String} {v : Svc} (hd : (l.filterMap identOf).Nodup) {d : Option (List Char)}
    (hm : Item.svcObj o n v d ∈ l) : (l.filterMap svcEntry).find? (fun p => p.1 == o) = some (o, n, v) := by
  induction l with
  | nil => cases hm
  | cons a l ih =>
    rcases List.mem_cons.1 hm with rfl | hm'
    · simp [svcEntry]
    · replace hm := hm'
      clear hm'
      have hd' : (l.filterMap identOf).Nodup := by
        cases ha : identOf a with
        | none => simpa [List.filterMap_cons, ha] using hd
        | some x => simp only [List.filterMap_cons, ha, List.nodup_cons] at hd; exact hd.2
      cases ha : svcEntry a with
      | none => rw [List.filterMap_cons, ha]; exact ih hd' hm
      | some x =>
        cases a <;> simp only [svcEntry] at ha <;> try (cases ha; done)
        cases ha
        rename_i o' n' v' d'
        have : o' ≠ o := by
          intro e
          subst e
          simp only [List.filterMap_cons, identOf, List.nodup_cons] at hd
          exact hd.1 (List.mem_filterMap.2 ⟨.svcObj o' n v d, hm, rfl⟩)
        rw [List.filterMap_cons]
        simp only [svcEntry, List.find?_cons]
        rw [show (o' == o) = false by simp [this]]
        exact ih hd' hm

theorem firstOf_mem {f : Item → Option (String × β)} {l : List Item} {n : String} {a : β} (h : firstOf f l n = some a) :
    ∃ i ∈ l, f i = some (n, a) := by
  unfold firstOf at h
  obtain ⟨p, hp, rfl⟩ := Option.map_eq_some_iff.1 h
  have h1 := List.find?_some hp
  obtain ⟨i, hi, e⟩ := List.mem_filterMap.1 (List.mem_of_find?_eq_some hp)
  refine ⟨i, hi, ?_⟩
  have : p.1 = n := by simpa using h1
  rw [e, ← this]

/-- The first service object of a name, by identity and by contents. -/
theorem first_svc {l : List Item} {n : String} {o : Nat} (h : firstOf (idDef .svcObj) l n = some o) :
    ∃ v d, Item.svcObj o n v d ∈ l ∧ firstOf svcDef l n = some v := by
  induction l with
  | nil => cases h
  | cons a l ih =>
    cases ha : svcEntry a with
    | none =>
      have h1 : idDef .svcObj a = none := by cases a <;> first | rfl | cases ha
      have h2 : svcDef a = none := by cases a <;> first | rfl | cases ha
      have e1 : firstOf (idDef .svcObj) (a :: l) n = firstOf (idDef .svcObj) l n := by unfold firstOf; rw [List.filterMap_cons, h1]
      have e2 : firstOf svcDef (a :: l) n = firstOf svcDef l n := by unfold firstOf; rw [List.filterMap_cons, h2]
      rw [e1] at h
      obtain ⟨v, d, hm, hv⟩ := ih h
      exact ⟨v, d, List.mem_cons_of_mem _ hm, by rw [e2]; exact hv⟩
    | some x =>
      cases a <;> simp only [svcEntry] at ha <;> try (cases ha; done)
      cases ha
      rename_i o' n' v' d'
      by_cases hn : n' = n
      · subst hn
        have : o' = o := by simpa [firstOf, idDef] using h
        subst this
        exact ⟨v', d', by simp, by simp [firstOf, svcDef]⟩
      · have e1 : firstOf (idDef .svcObj) (.svcObj o' n' v' d' :: l) n = firstOf (idDef .svcObj) l n := by
          unfold firstOf; simp [idDef, hn]
        have e2 : firstOf svcDef (.svcObj o' n' v' d' :: l) n = firstOf svcDef l n := by unfold firstOf; simp [svcDef, hn]
        rw [e1] at h
        obtain ⟨v, d, hm, hv⟩ := ih h
        exact ⟨v, d, List.mem_cons_of_mem _ hm, by rw [e2]; exact hv⟩

theorem svcRef_inForce (t : Tracks before s) {v : NatCmd.Svc} (h : SvcRef (fun c o => ∃ n, inForce c before n = some o) s v) :
    ∃ n w, firstOf svcDef before n = some w ∧ v = natService n w := by
  obtain ⟨o, ⟨n, hn⟩, rfl⟩ := h
  obtain ⟨w, d, hm, hv⟩ := first_svc hn
  refine ⟨n, w, hv, ?_⟩
  unfold svcObject
  rw [t.svcDefs, find_entry t.distinct hm]
  rfl

end Acltk.FwsmText
