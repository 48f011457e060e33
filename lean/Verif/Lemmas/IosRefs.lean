import Verif.Lemmas.FwsmRefs
import Verif.Lemmas.IosHosts
import Verif.Spec.IosRefsSpec
/-!
# What the elements of an accepted IOS text refer to
-/
namespace Acltk.IosText
open Acltk Acltk.Lookup Acltk.Peg Acltk.AclText
open Acltk.FwsmText (St Val Ctx Ids Tracks HostInForce inForce portIds protoIds icmpIds ref_refer ref_aclHost ref_node ref_aclPort ref_aclProtocol ref_icmpOptions
  ref_portMember ref_icmpMember ref_protocolMember val_groupBody addAll_mem plain_nothing identOf firstOf lastOf netObjDef idDef)

variable {g : Guard} {s : St} {e : Env} {V : Host → Prop} {W : Config.Kind → Nat → Prop}

theorem ref_mkHost (c : Ctx V W e) {a : Addr} : Val (act (mkHost a)) V := by
  refine Val.act fun h hh => ?_
  unfold mkHost at hh
  split at hh
  · cases hh
  · cases hh; exact c.host _

theorem ref_wildcard (c : Ctx V W e) {a w : Addr} : Val (act (iosWildcardHost a w)) V := by
  refine Val.act fun h hh => ?_
  unfold iosWildcardHost at hh
  split at hh
  · cases hh; exact c.net _
  · unfold mkWildcard at hh
    split at hh
    · cases hh
    · split at hh
      · cases hh
      · cases hh; exact c.leaf _ (by simp) (by simp)

theorem ref_ip6Host (c : Ctx V W e) {a : Option Addr} {p : Option (List Char)} : Val (act (iosIpv6Host a p)) V := by
  refine Val.act fun h hh => ?_
  unfold iosIpv6Host at hh
  split at hh
  · cases hh; exact c.any
  · split at hh
    · split at hh
      · cases hh; exact c.net _
      · cases hh
    · exact ref_mkHost c (a := _) [] h [] (by unfold act; rw [hh])

theorem ref_iosHost (c : Ctx V W e) : Val (iosHost e) V := by
  unfold iosHost
  refine Val.alts_cons ?_ <| Val.alts_cons ?_ <| Val.alts_cons ?_ <| Val.alts_cons ?_ <| Val.alts_cons ?_ Val.alts_nil
  · exact Val.skip fun _ => Val.skip fun _ => Val.skip fun _ => ref_wildcard c
  · exact Val.skip fun _ => ref_mkHost c
  · exact Val.skip fun _ => Val.skip fun _ => Val.skip fun _ => ref_mkHost c
  · exact Val.skip fun _ => Val.skip fun _ => ref_refer c.netGroups
  · exact Val.skip fun _ => Val.pure c.any

theorem ref_optPort (c : Ctx V W e) : Val (optPort e) (fun p => Ids W (portIds p)) := by
  unfold optPort
  refine fun t p r h => ?_
  have := Val.opt (p := (do ws; AclText.aclPort e)) (Val.skip fun _ => ref_aclPort c) t p r h
  cases p with
  | none => exact Ids.nil
  | some v => exact this v rfl

theorem ref_mkNode {h : Host} {p : Option PortVal} (hh : V h) (hp : Ids W (portIds p)) : Val (act (mkNode h p)) (fun n => V n.host ∧ Ids W (portIds n.port)) := by
  refine Val.act ?_
  intro a ha
  unfold mkNode at ha
  split at ha
  · cases ha
  · cases ha; exact ⟨hh, hp⟩

theorem ref_iosNode (c : Ctx V W e) : Val (iosNode e) (fun n => V n.host ∧ Ids W (portIds n.port)) := by
  unfold iosNode
  exact Val.bind (ref_iosHost c) fun h hh => Val.bind (ref_optPort c) fun p hp => ref_mkNode hh hp

theorem ref_ios6Host (c : Ctx V W e) : Val (ios6Host g) V := by
  unfold ios6Host
  refine Val.alts_cons ?_ <| Val.alts_cons ?_ <| Val.alts_cons ?_ Val.alts_nil
  · exact Val.skip fun _ => Val.skip fun _ => Val.skip fun _ => ref_ip6Host c
  · exact Val.skip fun _ => Val.skip fun _ => Val.skip fun _ => ref_ip6Host c
  · exact Val.skip fun _ => ref_ip6Host c

theorem ref_ios6Node (c : Ctx V W e) : Val (ios6Node e) (fun n => V n.host ∧ Ids W (portIds n.port)) := by
  unfold ios6Node
  exact Val.bind (ref_ios6Host c) fun h hh => Val.bind (ref_optPort c) fun p hp => ref_mkNode hh hp

/-- What is known of a rule. -/
def RuleRefs (V : Host → Prop) (W : Config.Kind → Nat → Prop) (r : IRule) : Prop := V r.src.host ∧ V r.dst.host ∧ Ids W (ruleIds r)

theorem rule_ids {r : IRule} (h1 : Ids W (protoIds r.protocol)) (h2 : Ids W (portIds r.src.port)) (h3 : Ids W (portIds r.dst.port))
    (h4 : Ids W (icmpIds r.icmp)) : Ids W (ruleIds r) := ((h1.append h2).append h3).append h4

theorem ref_numExtended (c : Ctx V W e) : Val (numExtended e) (RuleRefs V W) := by
  unfold numExtended
  refine Val.alt ?_ ?_
  · refine Val.skip fun ⟨i, m⟩ => ?_
    exact Val.skip fun _ => Val.skip fun _ => Val.bind (ref_aclHost c) fun a ha => Val.skip fun _ => Val.bind (ref_aclHost c) fun b hb =>
      Val.bind (ref_icmpOptions c) fun v hv => Val.skip fun _ => Val.skip fun _ => Val.pure ⟨ha, hb, rule_ids Ids.nil Ids.nil Ids.nil hv⟩
  · refine Val.skip fun ⟨i, m⟩ => ?_
    exact Val.bind (ref_aclProtocol c) fun p hp => Val.skip fun _ => Val.bind (ref_node c) fun a ha => Val.skip fun _ => Val.bind (ref_node c) fun b hb =>
      Val.skip fun _ => Val.skip fun _ => Val.pure ⟨ha.1, hb.1, rule_ids hp ha.2 hb.2 Ids.nil⟩

theorem ref_numStandard (c : Ctx V W e) : Val (numStandard e) (RuleRefs V W) := by
  unfold numStandard
  refine Val.skip fun ⟨i, m⟩ => ?_
  exact Val.bind (ref_iosHost c) fun a ha => Val.skip fun _ => Val.skip fun _ => Val.pure ⟨ha, c.any, rule_ids Ids.nil Ids.nil Ids.nil Ids.nil⟩

theorem ref_accessList (c : Ctx V W e) : Val (accessList e) (RuleRefs V W) := by
  unfold accessList
  exact Val.alt (val_remarked (ref_numExtended c) fun _ _ h => h) (val_remarked (ref_numStandard c) fun _ _ h => h)

theorem ref_namedExtended (c : Ctx V W e) : Val (namedExtended e) (RuleRefs V W) := by
  unfold namedExtended
  refine Val.alts_cons ?_ <| Val.alts_cons ?_ <| Val.alts_cons ?_ Val.alts_nil
  · exact Val.skip fun _ => Val.skip fun _ => Val.skip fun _ => Val.bind (ref_iosHost c) fun a ha => Val.skip fun _ =>
      Val.bind (ref_iosHost c) fun b hb => Val.bind (ref_icmpOptions c) fun v hv => Val.skip fun _ => Val.skip fun _ =>
      Val.pure ⟨ha, hb, rule_ids Ids.nil Ids.nil Ids.nil hv⟩
  · exact Val.skip fun _ => Val.bind (ref_aclProtocol c) fun p hp => Val.skip fun _ => Val.bind (ref_iosNode c) fun a ha => Val.skip fun _ =>
      Val.bind (ref_iosNode c) fun b hb => Val.skip fun _ => Val.skip fun _ => Val.pure ⟨ha.1, hb.1, rule_ids hp ha.2 hb.2 Ids.nil⟩
  · exact Val.skip fun _ => Val.bind (ref_aclProtocol c) fun p hp => Val.skip fun _ => Val.bind (ref_iosHost c) fun a ha => Val.skip fun _ =>
      Val.bind (ref_iosHost c) fun b hb => Val.skip fun _ => Val.skip fun _ => Val.pure ⟨ha, hb, rule_ids hp Ids.nil Ids.nil Ids.nil⟩

theorem ref_namedStandard (c : Ctx V W e) : Val (namedStandard e) (RuleRefs V W) := by
  unfold namedStandard
  exact Val.skip fun _ => Val.bind (ref_iosHost c) fun a ha => Val.skip fun _ => Val.skip fun _ => Val.pure ⟨ha, c.any, rule_ids Ids.nil Ids.nil Ids.nil Ids.nil⟩

theorem ref_namedEntry {p : P IRule} (hp : Val p (RuleRefs V W)) : Val (namedEntry g p) (RuleRefs V W) := by
  unfold namedEntry
  exact val_remarked (Val.skip fun _ => hp) fun _ _ h => h

theorem ref_ipAccessList (c : Ctx V W e) : Val (ipAccessList e) (fun l => ∀ r ∈ l, RuleRefs V W r) := by
  unfold ipAccessList
  refine Val.alt ?_ ?_
  · refine Val.skip fun _ => Val.skip fun _ => Val.skip fun n => Val.skip fun _ =>
      Val.bind (Val.many (ref_namedEntry (ref_namedStandard c))) fun l hl => Val.pure ?_
    intro r hr
    obtain ⟨x, hx, rfl⟩ := List.mem_map.1 hr
    exact hl x hx
  · refine Val.skip fun _ => Val.skip fun _ => Val.skip fun n => Val.skip fun _ =>
      Val.bind (Val.many (ref_namedEntry (ref_namedExtended c))) fun l hl => Val.pure ?_
    intro r hr
    obtain ⟨x, hx, rfl⟩ := List.mem_map.1 hr
    exact hl x hx

theorem ref_ip6AccessList (c : Ctx V W e) : Val (ip6AccessList e) (fun l => ∀ r ∈ l, RuleRefs V W r) := by
  have hr : Val (ip6Rule e) (RuleRefs V W) := by
    unfold ip6Rule
    refine Val.alt ?_ ?_
    · exact Val.skip fun _ => Val.skip fun _ => Val.bind (ref_aclProtocol c) fun p hp => Val.skip fun _ => Val.bind (ref_ios6Node c) fun a ha => Val.skip fun _ =>
        Val.bind (ref_ios6Node c) fun b hb => Val.skip fun _ => Val.skip fun _ => Val.pure ⟨ha.1, hb.1, rule_ids hp ha.2 hb.2 Ids.nil⟩
    · exact Val.skip fun _ => Val.skip fun _ => Val.skip fun _ => Val.skip fun _ => Val.bind (ref_ios6Node c) fun a ha => Val.skip fun _ =>
        Val.bind (ref_ios6Node c) fun b hb => Val.skip fun _ => Val.skip fun _ => Val.pure ⟨ha.1, hb.1, rule_ids Ids.nil ha.2 hb.2 Ids.nil⟩
  have hq : Val (ip6Seq e) (RuleRefs V W) := by
    unfold ip6Seq
    exact Val.skip fun _ => Val.skip fun _ => Val.skip fun _ => Val.skip fun _ => Val.skip fun _ => Val.bind hr fun r hr => Val.pure hr
  unfold ip6AccessList
  refine Val.skip fun _ => Val.skip fun _ => Val.skip fun n => Val.skip fun _ => Val.bind (Val.many1 hq) fun l hl => Val.pure ?_
  intro r hr
  obtain ⟨x, hx, rfl⟩ := List.mem_map.1 hr
  exact hl x hx

/-! ## elements -/

/-- What is known of an element. -/
def ItemRefs (V : Host → Prop) (W : Config.Kind → Nat → Prop) (i : Item) : Prop := (∀ h ∈ hostsOf i, V h) ∧ Ids W (idsOf i)

theorem refs_rules {i : Item} (hb : ∀ j, i ≠ .base j) (h : ∀ r ∈ itemRules i, RuleRefs V W r) : ItemRefs V W i := by
  have e : hostsOf i = (itemRules i).flatMap (fun r => [r.src.host, r.dst.host]) ∧ idsOf i = (itemRules i).flatMap ruleIds := by
    cases i <;> first | exact absurd rfl (hb _) | exact ⟨by simp [hostsOf], by simp [idsOf]⟩
  unfold ItemRefs
  rw [e.1, e.2]
  refine ⟨?_, Ids.flat fun r hr => (h r hr).2.2⟩
  intro x hx
  obtain ⟨r, hr, hx⟩ := List.mem_flatMap.1 hx
  simp only [List.mem_cons, List.not_mem_nil, or_false] at hx
  rcases hx with rfl | rfl
  · exact (h r hr).1
  · exact (h r hr).2.1

theorem refs_none {i : Item} (h1 : hostsOf i = []) (h2 : idsOf i = []) : ItemRefs V W i := ⟨by rw [h1]; simp, by rw [h2]; exact Ids.nil⟩

theorem ref_networkMember (c : Ctx V W e) : Val (networkMember e) V := by
  unfold networkMember
  refine Val.alts_cons ?_ <| Val.alts_cons ?_ <| Val.alts_cons ?_ <| Val.alts_cons ?_ <| Val.alts_cons ?_ <| Val.alts_cons ?_ Val.alts_nil
  · exact Val.skip fun _ => Val.skip fun _ => Val.skip fun a => Val.skip fun _ => Val.skip fun _ => Val.pure (c.host a)
  · exact Val.skip fun _ => Val.skip fun _ => Val.skip fun _ => Val.skip fun _ => Val.skip fun _ => Val.skip fun _ => Val.skip fun _ =>
      Val.act fun _ h => by cases h
  · exact Val.skip fun _ => Val.skip fun _ => Val.skip fun _ => Val.skip fun _ => Val.skip fun _ => Val.skip fun n => Val.pure (c.net n)
  · exact Val.skip fun _ => Val.skip fun _ => Val.skip fun _ => Val.skip fun _ => Val.skip fun _ => Val.skip fun n => Val.pure (c.net n)
  · exact Val.skip fun _ => Val.skip fun _ => Val.bind (ref_refer c.netGroups) fun h hh => Val.skip fun _ => Val.pure hh
  · exact Val.act fun _ h => by cases h

theorem ref_serviceMember (c : Ctx V W e) : Val (serviceMember e) (fun x => (∀ o, x = .group o → W .svcGroup o) ∧ (∀ o, x ≠ .obj o)) := by
  unfold serviceMember
  refine Val.alts_cons ?_ <| Val.alts_cons ?_ <| Val.alts_cons ?_ <| Val.alts_cons ?_ <| Val.alts_cons ?_ Val.alts_nil
  · exact Val.skip fun _ => Val.skip fun _ => Val.skip fun _ => Val.pure (by simp)
  · exact Val.skip fun _ => Val.skip fun _ => Val.pure (by simp)
  · exact Val.skip fun _ => Val.skip fun _ => Val.skip fun _ => Val.pure (by simp)
  · exact Val.skip fun _ => Val.skip fun _ => Val.bind (ref_refer c.svcGroups) fun a ha =>
      Val.skip fun _ => Val.skip fun _ => Val.pure (by simp [ha])
  · exact Val.act fun _ h => by cases h

variable {before : List Item}

/-- What a reference of that kind may stand for. -/
def Standing (before : List Item) (c : Config.Kind) (o : Nat) : Prop := ∃ n, inForce c (defs before) n = some o

/-- What is known of a command: the element refers to what is in force, and the tables follow the elements. -/
def Out (before : List Item) (x : Item × St) : Prop :=
  ItemRefs (HostInForce (defs before)) (Standing before) x.1 ∧ Tracks (defs (before ++ [x.1])) x.2

theorem defs_snoc (i : Item) : defs (before ++ [i]) = defs before ++ [match i with | .base j => j | _ => .nothing] := by
  unfold defs
  rw [List.map_append]
  cases i <;> rfl

theorem tracks_base {s' : St} {j : FwsmText.Item} (t : Tracks (defs before ++ [j]) s') : Tracks (defs (before ++ [.base j])) s' := by
  rw [defs_snoc]; exact t

theorem ref_objectGroup (t : Tracks (defs before) s) : Val (objectGroup s) (Out before) := by
  have h : Val (objectGroupType s) (fun x => ItemRefs (HostInForce (defs before)) (Standing before) (.base x.1) ∧ Tracks (defs before ++ [x.1]) x.2) := by
    have c : Ctx (HostInForce (defs before)) (Standing before) s.env := t.ctx
    have two : ∀ {j : FwsmText.Item}, (∀ n l d, j ≠ .netGroup n l d) → Ids (Standing before) (idsOf (.base j)) → ItemRefs (HostInForce (defs before)) (Standing before) (.base j) := by
      intro j hj hi
      refine ⟨?_, hi⟩
      intro x hx
      cases j <;> first | exact absurd rfl (hj _ _ _) | simp [hostsOf, itemRules] at hx
    unfold objectGroupType
    dsimp only
    refine Val.alts_cons ?_ <| Val.alts_cons ?_ <| Val.alts_cons ?_ <| Val.alts_cons ?_ <| Val.alts_cons ?_ Val.alts_nil
    · refine Val.skip fun _ => Val.bind (val_groupBody (ref_networkMember c)) fun ⟨n, d, l⟩ hl => Val.pure ⟨⟨?_, by simp [idsOf, itemRules, Ids]⟩, t.netGroup _ _ _⟩
      intro x hx
      simp [hostsOf, itemRules] at hx
      exact hl x hx
    · refine Val.skip fun _ => Val.skip fun _ => Val.skip fun _ => Val.skip fun _ => Val.skip fun _ => Val.skip fun _ => Val.skip fun _ =>
        Val.skip fun _ => Val.bind (Val.many (p := (do sp; FwsmText.portMember s.env)) (Val.skip fun _ => ref_portMember c)) fun l hl =>
        Val.bind (Val.act fun m hm => hm) fun m hm => Val.pure ⟨two (by intro _ _ _ h; cases h) ?_, t.portGroup _ _ _ _⟩
      refine Ids.append Ids.nil (Ids.flat ?_)
      intro a ha
      cases a with
      | group o => exact Ids.one (hl _ (addAll_mem hm _ ha) o rfl)
      | port => exact Ids.nil
      | range => exact Ids.nil
    · refine Val.skip fun _ => Val.bind (val_groupBody (ref_serviceMember c)) fun ⟨n, d, l⟩ hl => Val.pure ⟨two (by intro _ _ _ h; cases h) ?_, t.svcGroup _ _ _⟩
      refine Ids.append Ids.nil (Ids.flat ?_)
      intro a ha
      cases a with
      | group o => exact Ids.one ((hl _ ha).1 o rfl)
      | obj o => exact absurd rfl ((hl _ ha).2 o)
      | svc => exact Ids.nil
    · refine Val.skip fun _ => Val.bind (val_groupBody (ref_icmpMember c)) fun ⟨n, d, l⟩ hl => Val.pure ⟨two (by intro _ _ _ h; cases h) ?_, t.icmpGroup _ _ _⟩
      refine Ids.append Ids.nil (Ids.flat ?_)
      intro a ha
      cases a with
      | group o => exact Ids.one (hl _ ha o rfl)
      | icmp => exact Ids.nil
    · refine Val.skip fun _ => Val.bind (val_groupBody (ref_protocolMember c)) fun ⟨n, d, l⟩ hl => Val.pure ⟨two (by intro _ _ _ h; cases h) ?_, t.protoGroup _ _ _⟩
      refine Ids.append Ids.nil (Ids.flat ?_)
      intro a ha
      cases a with
      | group o => exact Ids.one (hl _ ha o rfl)
      | protocol => exact Ids.nil
  unfold objectGroup
  exact Val.skip fun _ => Val.skip fun _ => Val.bind h fun ⟨i, s'⟩ hi => Val.pure ⟨hi.1, tracks_base hi.2⟩

/-- An element that defines nothing. -/
def Plain (i : Item) : Prop := ∀ j, i = .base j → FwsmText.Plain j

theorem tracks_plain {i : Item} {s' : St} (t : Tracks (defs before) s) (h : Plain i)
    (he : s'.env = s.env ∧ s'.svcDefs = s.svcDefs ∧ s'.next = s.next) : Tracks (defs (before ++ [i])) s' := by
  rw [defs_snoc]
  obtain ⟨e1, e2, e3⟩ := he
  refine t.plain ?_ ⟨by rw [e1], by rw [e1], by rw [e1], by rw [e1], by rw [e1], by rw [e1], by rw [e1], by rw [e1], e2, e3⟩
  cases i with
  | base j => exact h j rfl
  | _ => exact plain_nothing

theorem ref_keep {p : P Item} (t : Tracks (defs before) s)
    (hp : Val p (fun i => ItemRefs (HostInForce (defs before)) (Standing before) i ∧ Plain i)) : Val (keep s p) (Out before) := by
  unfold keep
  exact Val.bind hp fun _ hi => Val.pure ⟨hi.1, tracks_plain t hi.2 ⟨rfl, rfl, rfl⟩⟩

theorem plain_base {j : FwsmText.Item} (h : FwsmText.Plain j) : Plain (.base j) := by intro k e; cases e; exact h
theorem plain_other {i : Item} (h : ∀ j, i ≠ .base j) : Plain i := fun j e => absurd e (h j)

theorem ref_command (t : Tracks (defs before) s) : Val (command s) (Out before) := by
  have c : Ctx (HostInForce (defs before)) (Standing before) s.env := t.ctx
  have none_ : ∀ {j : FwsmText.Item}, (∀ n l d, j ≠ .netGroup n l d) → FwsmText.Plain j →
      ItemRefs (HostInForce (defs before)) (Standing before) (.base j) ∧ Plain (.base j) := by
    intro j hj hp
    refine ⟨refs_none ?_ ?_, plain_base hp⟩
    · cases j <;> first | exact absurd rfl (hj _ _ _) | rfl
    · obtain ⟨-, -, -, -, hi⟩ := hp
      cases j <;> first | rfl | cases hi
  have nothing : ItemRefs (HostInForce (defs before)) (Standing before) (.base .nothing) ∧ Plain (.base .nothing) :=
    none_ (by intro _ _ _ h; cases h) plain_nothing
  have ign : ∀ l, Val (do ignoredOf s.env.guard l; pure (Item.base .nothing)) (fun i => ItemRefs (HostInForce (defs before)) (Standing before) i ∧ Plain i) :=
    fun l => Val.skip fun _ => Val.pure nothing
  unfold command
  refine Val.alts_cons (ref_keep t ?_) <| Val.alts_cons (ref_keep t ?_) <| Val.alts_cons (ref_keep t ?_) <|
    Val.alts_cons ?_ <| Val.alts_cons (ref_objectGroup t) <| Val.alts_cons (ref_keep t ?_) <| Val.alts_cons (ref_keep t ?_) <|
    Val.alts_cons (ref_keep t ?_) <| Val.alts_cons (ref_keep t ?_) Val.alts_nil
  · unfold base version
    exact Val.bind (V := fun j => ∃ v, j = .version v) (Val.skip fun _ => Val.skip fun v => Val.skip fun _ => Val.pure ⟨v, rfl⟩) fun j hj => by
      obtain ⟨v, rfl⟩ := hj
      exact Val.pure (none_ (by intro _ _ _ h; cases h) ⟨rfl, rfl, fun k => by cases k <;> rfl, rfl, rfl⟩)
  · unfold base FwsmText.hostname
    exact Val.bind (V := fun j => ∃ v, j = .hostname v) (Val.skip fun _ => Val.skip fun _ => Val.skip fun v => Val.skip fun _ => Val.pure ⟨_, rfl⟩) fun j hj => by
      obtain ⟨v, rfl⟩ := hj
      exact Val.pure (none_ (by intro _ _ _ h; cases h) ⟨rfl, rfl, fun k => by cases k <;> rfl, rfl, rfl⟩)
  · unfold base FwsmText.domainName
    exact Val.bind (V := fun j => ∃ v, j = .domain v) (Val.skip fun _ => Val.skip fun v => Val.skip fun _ => Val.pure ⟨_, rfl⟩) fun j hj => by
      obtain ⟨v, rfl⟩ := hj
      exact Val.pure (none_ (by intro _ _ _ h; cases h) ⟨rfl, rfl, fun k => by cases k <;> rfl, rfl, rfl⟩)
  · unfold interface
    refine Val.skip fun _ => Val.skip fun _ => Val.skip fun _ => Val.skip fun _ => Val.skip fun _ => Val.skip fun i => Val.pure ?_
    have := none_ (j := .iface i) (by intro _ _ _ h; cases h) ⟨rfl, rfl, fun k => by cases k <;> rfl, rfl, rfl⟩
    exact ⟨this.1, tracks_plain t this.2 ⟨rfl, rfl, rfl⟩⟩
  · unfold ruleCommand
    refine Val.bind (ref_accessList c) fun r hr => Val.pure ⟨refs_rules (by intro j h; cases h) ?_, plain_other (by intro j h; cases h)⟩
    intro x hx
    rw [List.mem_singleton.1 hx]
    exact hr
  · unfold ip
    refine Val.skip fun _ => Val.skip fun _ => Val.alts_cons ?_ <| Val.alts_cons ?_ <| Val.alts_cons ?_ <| Val.alts_cons ?_ Val.alts_nil
    · unfold ipLists
      exact Val.skip fun _ => Val.skip fun _ => Val.bind (ref_ipAccessList c) fun l hl =>
        Val.pure ⟨refs_rules (by intro j h; cases h) hl, plain_other (by intro j h; cases h)⟩
    · unfold ipDomain
      exact Val.skip fun _ => Val.skip fun _ => Val.skip fun _ => Val.pure (none_ (by intro _ _ _ h; cases h) ⟨rfl, rfl, fun k => by cases k <;> rfl, rfl, rfl⟩)
    · unfold ipRoutes ipRoute routeTo
      refine Val.skip fun _ => Val.skip fun _ => Val.alt (Val.skip fun _ => Val.skip fun _ => Val.pure nothing) ?_
      exact Val.skip fun _ => Val.skip fun _ => Val.skip fun _ => Val.skip fun _ => Val.skip fun _ => Val.skip fun _ => Val.skip fun _ =>
        Val.pure ⟨refs_none rfl rfl, plain_other (by intro j h; cases h)⟩
    · unfold ipRest
      exact ign _
  · unfold ipv6
    refine Val.skip fun _ => Val.skip fun _ => Val.alt ?_ (ign _)
    exact Val.bind (ref_ip6AccessList c) fun l hl => Val.pure ⟨refs_rules (by intro j h; cases h) hl, plain_other (by intro j h; cases h)⟩
  · unfold ignoredCommand
    exact Val.skip fun _ => Val.pure nothing

/-! ## all commands -/

theorem commands_hist {S : List Item → St → Prop} {I : List Item → Item → Prop}
    (h : ∀ before s, S before s → Val (command s) (fun x => I before x.1 ∧ S (before ++ [x.1]) x.2)) :
    ∀ (n : Nat) (before : List Item) (s s' : St) (t r : Text) (l : List Item), t.length = n → S before s → commands s t = .ok (l, s') r →
      (∀ (k : Nat) i, l[k]? = some i → I (before ++ l.take k) i) ∧ S (before ++ l) s' := by
  intro n
  induction n using Nat.strongRecOn with
  | _ n ih =>
    intro before s s' t r l hn hS hc
    rw [commands] at hc
    split at hc
    · rename_i i s1 r1 h1
      obtain ⟨hi, hs1⟩ := h before s hS _ _ _ h1
      split at hc
      · rename_i hl
        split at hc
        · rename_i l2 s2 u h2
          cases hc
          obtain ⟨h3, h4⟩ := ih r1.length (by omega) (before ++ [i]) s1 _ r1 _ _ rfl hs1 h2
          refine ⟨?_, by simpa using h4⟩
          intro k x hx
          cases k with
          | zero => cases hx; simpa using hi
          | succ k => simpa using h3 k x hx
        · cases hc
        · cases hc
      · cases hc; exact ⟨by simp, by simpa using hS⟩
    · cases hc; exact ⟨by simp, by simpa using hS⟩
    · cases hc

theorem parseFile_refs {t r : Text} {items : List Item} (h : parseFile g t = .ok items r) :
    (∀ (k : Nat) i, items[k]? = some i → ItemRefs (HostInForce (defs (items.take k))) (Standing (items.take k)) i) ∧ ∃ s', Tracks (defs items) s' := by
  have key : ∀ {l s' u}, commands { env := { guard := g } } t = .ok (l, s') u →
      (∀ (k : Nat) i, l[k]? = some i → ItemRefs (HostInForce (defs (l.take k))) (Standing (l.take k)) i) ∧ ∃ s', Tracks (defs l) s' := by
    intro l s' u hc
    obtain ⟨h1, h2⟩ := commands_hist (S := fun b s => Tracks (defs b) s) (I := fun b i => ItemRefs (HostInForce (defs b)) (Standing b) i)
      (fun b s ht => ref_command ht) _ [] _ _ _ _ _ rfl FwsmText.tracks_new hc
    exact ⟨by simpa using h1, s', by simpa using h2⟩
  unfold parseFile at h
  split at h
  · rename_i l s' u hc
    split at h
    · cases h
    · split at h
      · cases h; exact key hc
      · split at h
        · cases h; exact key hc
        · cases h
  · cases h
  · cases h

/-! ## the kinds of elements -/

/-- What an element may be that both grammars have. -/
def Base (i : Item) : Prop := ∀ j, i = .base j →
  (∃ v, j = .version v) ∨ (∃ v, j = .hostname v) ∨ (∃ v, j = .domain v) ∨ (∃ v, j = .iface v) ∨ j = .nothing ∨
  (∃ n l d, j = .netGroup n l d) ∨ (∃ o n k l d, j = .portGroup o n k l d) ∨ (∃ o n l d, j = .svcGroup o n l d) ∨
  (∃ o n l d, j = .icmpGroup o n l d) ∨ (∃ o n l d, j = .protoGroup o n l d)

theorem base_mk {j : FwsmText.Item} (h : (∃ v, j = .version v) ∨ (∃ v, j = .hostname v) ∨ (∃ v, j = .domain v) ∨ (∃ v, j = .iface v) ∨ j = .nothing ∨
    (∃ n l d, j = .netGroup n l d) ∨ (∃ o n k l d, j = .portGroup o n k l d) ∨ (∃ o n l d, j = .svcGroup o n l d) ∨
    (∃ o n l d, j = .icmpGroup o n l d) ∨ (∃ o n l d, j = .protoGroup o n l d)) : Base (.base j) := by intro k e; cases e; exact h

theorem base_other {i : Item} (h : ∀ j, i ≠ .base j) : Base i := fun j e => absurd e (h j)

theorem base_keep {p : P Item} (hp : Val p Base) : Val (keep s p) (fun x => Base x.1) := by
  unfold keep
  exact Val.bind hp fun _ hi => Val.pure hi

theorem base_nothing : Base (.base .nothing) := base_mk (by simp)

theorem base_objectGroup : Val (objectGroup s) (fun x => Base x.1) := by
  have h : Val (objectGroupType s) (fun x => Base (.base x.1)) := by
    unfold objectGroupType
    dsimp only
    refine Val.alts_cons ?_ <| Val.alts_cons ?_ <| Val.alts_cons ?_ <| Val.alts_cons ?_ <| Val.alts_cons ?_ Val.alts_nil
    · exact Val.skip fun _ => Val.skip fun ⟨n, d, l⟩ => Val.pure (base_mk (by simp))
    · exact Val.skip fun _ => Val.skip fun _ => Val.skip fun _ => Val.skip fun _ => Val.skip fun _ => Val.skip fun _ => Val.skip fun _ =>
        Val.skip fun _ => Val.skip fun l => Val.skip fun m => Val.pure (base_mk (by simp))
    · exact Val.skip fun _ => Val.skip fun ⟨n, d, l⟩ => Val.pure (base_mk (by simp))
    · exact Val.skip fun _ => Val.skip fun ⟨n, d, l⟩ => Val.pure (base_mk (by simp))
    · exact Val.skip fun _ => Val.skip fun ⟨n, d, l⟩ => Val.pure (base_mk (by simp))
  unfold objectGroup
  exact Val.skip fun _ => Val.skip fun _ => Val.bind h fun ⟨i, s'⟩ hi => Val.pure hi

theorem base_command : Val (command s) (fun x => Base x.1) := by
  have ign : ∀ l, Val (do ignoredOf s.env.guard l; pure (Item.base .nothing)) Base := fun l => Val.skip fun _ => Val.pure base_nothing
  unfold command
  refine Val.alts_cons (base_keep ?_) <| Val.alts_cons (base_keep ?_) <| Val.alts_cons (base_keep ?_) <|
    Val.alts_cons ?_ <| Val.alts_cons base_objectGroup <| Val.alts_cons (base_keep ?_) <| Val.alts_cons (base_keep ?_) <|
    Val.alts_cons (base_keep ?_) <| Val.alts_cons (base_keep ?_) Val.alts_nil
  · unfold base version
    exact Val.bind (V := fun j => ∃ v, j = .version v) (Val.skip fun _ => Val.skip fun v => Val.skip fun _ => Val.pure ⟨v, rfl⟩) fun j hj =>
      Val.pure (base_mk (Or.inl hj))
  · unfold base FwsmText.hostname
    exact Val.bind (V := fun j => ∃ v, j = .hostname v) (Val.skip fun _ => Val.skip fun _ => Val.skip fun v => Val.skip fun _ => Val.pure ⟨_, rfl⟩) fun j hj =>
      Val.pure (base_mk (Or.inr (Or.inl hj)))
  · unfold base FwsmText.domainName
    exact Val.bind (V := fun j => ∃ v, j = .domain v) (Val.skip fun _ => Val.skip fun v => Val.skip fun _ => Val.pure ⟨_, rfl⟩) fun j hj =>
      Val.pure (base_mk (Or.inr (Or.inr (Or.inl hj))))
  · unfold interface
    exact Val.skip fun _ => Val.skip fun _ => Val.skip fun _ => Val.skip fun _ => Val.skip fun _ => Val.skip fun i => Val.pure (base_mk (by simp))
  · unfold ruleCommand
    exact Val.skip fun r => Val.pure (base_other (by intro j h; cases h))
  · unfold ip
    refine Val.skip fun _ => Val.skip fun _ => Val.alts_cons ?_ <| Val.alts_cons ?_ <| Val.alts_cons ?_ <| Val.alts_cons ?_ Val.alts_nil
    · unfold ipLists
      exact Val.skip fun _ => Val.skip fun _ => Val.skip fun l => Val.pure (base_other (by intro j h; cases h))
    · unfold ipDomain
      exact Val.skip fun _ => Val.skip fun _ => Val.skip fun _ => Val.pure (base_mk (by simp))
    · unfold ipRoutes ipRoute routeTo
      refine Val.skip fun _ => Val.skip fun _ => Val.alt (Val.skip fun _ => Val.skip fun _ => Val.pure base_nothing) ?_
      exact Val.skip fun _ => Val.skip fun _ => Val.skip fun _ => Val.skip fun _ => Val.skip fun _ => Val.skip fun _ => Val.skip fun _ =>
        Val.pure (base_other (by intro j h; cases h))
    · unfold ipRest
      exact ign _
  · unfold ipv6
    refine Val.skip fun _ => Val.skip fun _ => Val.alt ?_ (ign _)
    exact Val.skip fun l => Val.pure (base_other (by intro j h; cases h))
  · unfold ignoredCommand
    exact Val.skip fun _ => Val.pure base_nothing

theorem parseFile_base {t r : Text} {items : List Item} (h : parseFile g t = .ok items r) : ∀ i ∈ items, Base i := by
  have key : ∀ {l s' u}, commands { env := { guard := g } } t = .ok (l, s') u → ∀ i ∈ l, Base i := by
    intro l s' u hc i hi
    obtain ⟨h1, -⟩ := commands_hist (S := fun _ _ => True) (I := fun _ i => Base i)
      (fun b s _ t x r hx => ⟨base_command t x r hx, trivial⟩) _ [] _ _ _ _ _ rfl trivial hc
    obtain ⟨k, hk, e⟩ := List.mem_iff_getElem.1 hi
    exact h1 k i (by rw [← e]; exact List.getElem?_eq_getElem hk)
  unfold parseFile at h
  split at h
  · rename_i l s' u hc
    split at h
    · cases h
    · split at h
      · cases h; exact key hc
      · split at h
        · cases h; exact key hc
        · cases h
  · cases h
  · cases h

end Acltk.IosText
