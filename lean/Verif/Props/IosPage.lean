import Verif.Lemmas.IosHeap
/-!
# C113: the page of an IOS configuration
-/
namespace Acltk.IosPage
open Acltk Acltk.Resolve
open Acltk.Page hiding Item
open Acltk.FwsmText (netGroupDef idDef identOf HostInForce inForce lastOf protoIds portIds icmpIds)
open Acltk.IosText (Item IRule rulesOf defs hostsOf idsOf itemRules ruleIds Base)
open Acltk.Accepted (RuleAt NatAt HoldsCfg listOf)

variable {T : Type} {objs : Oid → Obj} {items : List Item}

/-- What the element number `k` refers to: an object without a name of its own, or a definition. -/
def Ok (items : List Item) (k : Nat) (o : Oid) : Prop :=
  size items ≤ o ∨ ∃ p c n, o = oid items p ∧ RefersTo items k c n p ∧ ∃ i, (defs items)[p]? = some i ∧ defName c i = some n

theorem part_ok {k : Nat} {e : El} {w : Obj → Prop} (h : Part objs items e w) : ∃ o, e = .obj o ∧ Ok items k o := by
  obtain ⟨q, h1, h2, -⟩ := h
  exact ⟨q, h1, Or.inl h2⟩

theorem host_ok (R : Refs items) {k : Nat} {x : Item} {h : Host} {e : El} (hx : items[k]? = some x) (hm : h ∈ hostsOf x)
    (he : HostAt objs items k h e) : ∃ o, e = .obj o ∧ Ok items k o := by
  cases h with
  | group n l =>
    obtain ⟨p, i, h1, h2, h3⟩ := lastAt (R.hosts k x hx _ hm)
    exact ⟨_, he p h1, Or.inr ⟨p, .netGroup, n, rfl, .group hx hm h1, i, h2, netGroup_name h3⟩⟩
  | obj n l => exact absurd rfl ((R.only k x hx).1 _ hm n l)
  | _ => simp only [HostAt] at he; exact part_ok he

theorem id_ok (R : Refs items) {k : Nat} {x : Item} {c : Config.Kind} {o : Nat} {e : El} (hx : items[k]? = some x) (hm : (c, o) ∈ idsOf x) (he : IdAt items o e) :
    ∃ (p : Nat) (i : FwsmText.Item) (n : String), e = .obj (oid items p) ∧ (defs items)[p]? = some i ∧ defName c i = some n ∧ Ok items k (oid items p) := by
  obtain ⟨n, hf⟩ := R.ids k x hx _ hm
  have key : ∃ (p : Nat) (i : FwsmText.Item), (defs items)[p]? = some i ∧ idDef c i = some (n, o) := by
    cases c with
    | svcObj => exact absurd rfl ((R.only k x hx).2 _ hm).1
    | _ => obtain ⟨p, i, -, h1, h2⟩ := lastAt hf; exact ⟨p, i, h1, h2⟩
  obtain ⟨p, i, h1, h2⟩ := key
  obtain ⟨h3, h4, -⟩ := idDef_spec h2
  exact ⟨p, i, n, he p i h1 h3, h1, h4, Or.inr ⟨p, c, n, rfl, .id hx hm h1 h2, i, h1, h4⟩⟩

theorem id_ok' (R : Refs items) {k : Nat} {x : Item} {c : Config.Kind} {o : Nat} {e : El} (hx : items[k]? = some x) (hm : (c, o) ∈ idsOf x) (he : IdAt items o e) :
    ∃ q, e = .obj q ∧ Ok items k q := by
  obtain ⟨p, i, n, h1, -, -, h2⟩ := id_ok R hx hm he
  exact ⟨_, h1, h2⟩

theorem rule_host {i : Item} {r : IRule} (h : r ∈ itemRules i) : r.src.host ∈ hostsOf i ∧ r.dst.host ∈ hostsOf i := by
  unfold hostsOf
  constructor <;> refine List.mem_append_left _ (List.mem_flatMap.2 ⟨r, h, by simp⟩)

theorem rule_id {i : Item} {r : IRule} (h : r ∈ itemRules i) {x : Config.Kind × Nat} (hx : x ∈ ruleIds r) : x ∈ idsOf i := by
  unfold idsOf
  exact List.mem_append_left _ (List.mem_flatMap.2 ⟨r, h, hx⟩)

theorem port_ok (R : Refs items) {k : Nat} {x : Item} {v : Option AclText.PortVal} {e : El} (hx : items[k]? = some x) (hv : ∀ q ∈ portIds v, q ∈ idsOf x)
    (he : PortAt objs items v e) : e = .none ∨ ∃ q, e = .obj q ∧ Ok items k q := by
  rcases v with _ | ⟨_ | _ | o | _⟩
  · exact Or.inl he
  · simp only [PortAt] at he; exact Or.inr (part_ok he)
  · simp only [PortAt] at he; exact Or.inr (part_ok he)
  · exact Or.inr (id_ok' R hx (hv (.portGroup, o) (by simp [portIds])) he)
  · simp only [PortAt] at he; exact Or.inr (part_ok he)

theorem proto_ok (R : Refs items) {k : Nat} {x : Item} {v : AclText.Proto} {e : El} (hx : items[k]? = some x) (hv : ∀ q ∈ protoIds v, q ∈ idsOf x)
    (he : ProtoAt objs items v e) : ∃ q, e = .obj q ∧ Ok items k q := by
  cases v with
  | name n => simp only [ProtoAt] at he; exact part_ok he
  | svcGroup o => exact id_ok' R hx (hv (.svcGroup, o) (by simp [protoIds])) he
  | protoGroup o => exact id_ok' R hx (hv (.protoGroup, o) (by simp [protoIds])) he
  | svcObj o => exact id_ok' R hx (hv (.svcObj, o) (by simp [protoIds])) he

/-- The object of a rule, and the element it is in. -/
theorem rule_at (B : ObjectsOf objs items) {j : Nat} (hj : j < (rulesOf items).length) : ∃ (k : Nat) (i : Item) (r : IRule), (rulesOf items)[j]? = some r ∧
    items[k]? = some i ∧ r ∈ itemRules i ∧ RuleObj objs items k j r := by
  have hr := List.getElem?_eq_getElem hj
  obtain ⟨k, i, h1, h2, h3⟩ := rule_element hr
  exact ⟨k, i, _, hr, h1, h3, B.rule j k _ hr h2⟩

/-- What a rule refers to. -/
theorem field_ok (B : ObjectsOf objs items) (R : Refs items) {a o : Oid} (ha : a < (rulesOf items).length) (hf : Field (info objs) a (.obj o)) :
    ∃ k, Live items k ∧ Ok items k o := by
  obtain ⟨k, i, r, -, hi, hr, p, sh, sp, dh, dp, ic, e, h1, h2, h3, h4, h5, h6⟩ := rule_at B ha
  refine ⟨k, .rules hi (List.ne_nil_of_mem hr), ?_⟩
  have hc := field_contents hf
  simp only [contents, e] at hc
  have fin : ∀ {x : El}, (∃ q, x = .obj q ∧ Ok items k q) → x = .obj o → Ok items k o := by
    rintro x ⟨q, rfl, hq⟩ ex
    cases ex
    exact hq
  have port : ∀ {x : El}, (x = .none ∨ ∃ q, x = .obj q ∧ Ok items k q) → x = .obj o → Ok items k o := by
    rintro x (rfl | hq) ex
    · cases ex
    · exact fin hq ex
  have ids : ∀ q ∈ ruleIds r, q ∈ idsOf i := fun q hq => rule_id hr hq
  unfold ruleIds at ids
  simp only [List.mem_append, List.mem_cons, List.not_mem_nil, or_false, Option.mem_toList] at hc
  rcases hc with hc | hc | hc | hc | hc | hc | hc
  · exact fin (proto_ok R hi (fun q hq => ids q (by simp [hq])) h1) hc.symm
  · exact fin (host_ok R hi (rule_host hr).1 h2) hc.symm
  · exact port (port_ok R hi (fun q hq => ids q (by simp [hq])) h3) hc.symm
  · exact fin (host_ok R hi (rule_host hr).2 h4) hc.symm
  · exact port (port_ok R hi (fun q hq => ids q (by simp [hq])) h5) hc.symm
  · generalize hv : r.icmp = v at h6 ids
    rcases v with _ | ⟨_ | w⟩
    · rw [show ic = none from h6] at hc; cases hc
    · obtain ⟨z, e1, e2⟩ := h6; rw [e1] at hc; cases hc; exact fin (part_ok e2) rfl
    · obtain ⟨z, e1, e2⟩ := h6; rw [e1] at hc; cases hc
      exact fin (id_ok' R hi (ids (.icmpGroup, w) (by simp [icmpIds])) e2) rfl
  · unfold idEl at hc
    split at hc <;> cases hc

theorem place (a b c : Nat) (h1 : b ≤ a) (h2 : a < b + c) : a - b < c ∧ a = b + (a - b) := ⟨by omega, by omega⟩

theorem oid_split {o : Oid} (h1 : (rulesOf items).length ≤ o) (h2 : o < size items) : ∃ p, p < items.length ∧ o = oid items p := by
  have h := place o (rulesOf items).length items.length h1 h2
  exact ⟨o - (rulesOf items).length, h.1, h.2⟩

/-- Every object is one of a rule, of an element or has no name of its own. -/
theorem obj_cases (B : ObjectsOf objs items) (o : Oid) : (o < (rulesOf items).length ∧ ∃ a p sh sp dh dp ic, objs o = .rule (some a) p sh sp dh dp ic []) ∨
    (∃ (p : Nat) (i : Item), o = oid items p ∧ items[p]? = some i ∧ ItemAt objs items p i) ∨
    size items ≤ o ∧ (objs o = .other ∨ objs o = .address none ∨ (∃ n, objs o = .netInterface n) ∨ ∃ n, objs o = .protocol n) := by
  rcases Nat.lt_or_ge o (rulesOf items).length with h1 | h1
  · obtain ⟨k, i, r, -, -, -, p, sh, sp, dh, dp, ic, e, -⟩ := rule_at B h1
    exact Or.inl ⟨h1, _, _, _, _, _, _, _, e⟩
  · rcases Nat.lt_or_ge o (size items) with h2 | h2
    · obtain ⟨p, hp, e⟩ := oid_split h1 h2
      have := List.getElem?_eq_getElem hp
      exact Or.inr (Or.inl ⟨p, _, e, this, B.item p _ this⟩)
    · exact Or.inr (Or.inr ⟨h2, B.parts o h2⟩)

/-- The members of groups. -/
theorem member_ok (B : ObjectsOf objs items) (R : Refs items) {o : Oid} {c : GroupClass} {n : String} {l : List El} (h : objs o = .group c n l) :
    ∃ p, o = oid items p ∧ ∀ x ∈ l, ∃ q, x = .obj q ∧ Ok items p q := by
  rcases obj_cases B o with ⟨-, _, _, _, _, _, _, _, e⟩ | ⟨p, i, rfl, hi, hat⟩ | ⟨-, e | e | ⟨m, e⟩ | ⟨m, e⟩⟩ <;> first | (rw [h] at e; cases e; done) | skip
  refine ⟨p, rfl, ?_⟩
  cases i with
  | base j =>
    cases j with
    | netGroup m hs d =>
      obtain ⟨ms, h1, h2⟩ := hat
      rw [h] at h1
      cases h1
      intro x hx
      obtain ⟨y, hy, hr⟩ := each_mem h2 hx
      exact host_ok R hi (by simp [hostsOf, itemRules, hy]) hr
    | portGroup w m pr hs d =>
      obtain ⟨ms, h1, h2⟩ := hat
      rw [h] at h1
      cases h1
      intro x hx
      obtain ⟨y, hy, hr⟩ := each_mem h2 hx
      cases y with
      | group v => exact id_ok' R hi (c := .portGroup) (List.mem_append_right _ (List.mem_flatMap.2 ⟨_, hy, by simp⟩)) hr
      | _ => simp only [PortMemberAt] at hr; exact part_ok hr
    | svcGroup w m hs d =>
      obtain ⟨ms, h1, h2⟩ := hat
      rw [h] at h1
      cases h1
      intro x hx
      obtain ⟨y, hy, hr⟩ := each_mem h2 hx
      cases y with
      | group v => exact id_ok' R hi (c := .svcGroup) (List.mem_append_right _ (List.mem_flatMap.2 ⟨_, hy, by simp⟩)) hr
      | obj v => exact id_ok' R hi (c := .svcObj) (List.mem_append_right _ (List.mem_flatMap.2 ⟨_, hy, by simp⟩)) hr
      | svc _ => simp only [SvcMemberAt] at hr; exact part_ok hr
    | icmpGroup w m hs d =>
      obtain ⟨ms, h1, h2⟩ := hat
      rw [h] at h1
      cases h1
      intro x hx
      obtain ⟨y, hy, hr⟩ := each_mem h2 hx
      cases y with
      | group v => exact id_ok' R hi (c := .icmpGroup) (List.mem_append_right _ (List.mem_flatMap.2 ⟨_, hy, by simp⟩)) hr
      | icmp _ => simp only [IcmpMemberAt] at hr; exact part_ok hr
    | protoGroup w m hs d =>
      obtain ⟨ms, h1, h2⟩ := hat
      rw [h] at h1
      cases h1
      intro x hx
      obtain ⟨y, hy, hr⟩ := each_mem h2 hx
      cases y with
      | group v => exact id_ok' R hi (c := .protoGroup) (List.mem_append_right _ (List.mem_flatMap.2 ⟨_, hy, by simp⟩)) hr
      | protocol _ => simp only [ProtoMemberAt] at hr; exact part_ok hr
    | _ => have h1 : objs (oid items p) = _ := hat; rw [h] at h1; cases h1
  | _ => have h1 : objs (oid items p) = _ := hat; rw [h] at h1; cases h1

/-- A definition is an object of its section, with its name. -/
theorem defined_name (B : ObjectsOf objs items) (R : Refs items) {c : Config.Kind} {p : Nat} {i : FwsmText.Item} {n : String} (h : (defs items)[p]? = some i)
    (hn : defName c i = some n) : nameOf objs (oid items p) = some (sectOf c, n) ∧ ∃ g l, objs (oid items p) = .group g n l := by
  have hi := def_base h hn
  have hat := B.item p _ hi
  obtain ⟨n1, n2, n3⟩ := base_name R h hn
  cases c <;> first | (exact absurd rfl n1) | (exact absurd rfl n2) | (exact absurd rfl n3) | skip
  all_goals
    cases i <;> simp [defName] at hn
    subst hn
    obtain ⟨ms, e, -⟩ := hat
    exact ⟨by simp [nameOf, e, sectOf], _, _, e⟩

/-- A reference is a definition that is kept, or an object without a name of its own. -/
def OkKept (items : List Item) (o : Oid) : Prop := size items ≤ o ∨ ∃ p c n, o = oid items p ∧ Kept items c n p

theorem ok_kept (hS : Settled items) {k : Nat} (hk : Live items k) {o : Oid} (h : Ok items k o) : OkKept items o := by
  rcases h with h | ⟨p, c, n, h1, h2, -⟩
  · exact Or.inl h
  · exact Or.inr ⟨p, c, n, h1, hS k c n p hk h2⟩

theorem oid_inj {p q : Nat} (h : oid items p = oid items q) : p = q := Nat.add_left_cancel h

theorem group_live (B : ObjectsOf objs items) {p : Nat} (h : OkKept items (oid items p)) {c : GroupClass} {n : String} {l : List El}
    (e : objs (oid items p) = .group c n l) : Live items p := by
  rcases h with h | ⟨q, k, m, h1, h2⟩
  · rcases B.parts _ h with e' | e' | ⟨m, e'⟩ | ⟨m, e'⟩ <;> rw [e] at e' <;> cases e'
  · rw [oid_inj h1]
    exact .kept h2

/-- What something refers to is a definition that is kept or has no name of its own. -/
theorem refers_ok (B : ObjectsOf objs items) (R : Refs items) (hS : Settled items) {o : Oid} (hr : Refers objs (tb items) o) : OkKept items o := by
  induction hr with
  | @field a _ ha hf =>
    rw [rules_eq R, nat_nil R] at ha
    rcases ha with ha | ha
    · obtain ⟨k, h1, h2⟩ := field_ok B R (List.mem_range.1 ha) hf
      exact ok_kept hS h1 h2
    · cases ha
  | member _ e hl ih =>
    obtain ⟨p, rfl, h1⟩ := member_ok B R e
    obtain ⟨q, h2, h3⟩ := h1 _ hl
    cases h2
    exact ok_kept hS (group_live B ih e) h3
  | @listed s m a _ c n l ht e hl =>
    obtain ⟨p, rfl, h1⟩ := member_ok B R e
    obtain ⟨q, h2, h3⟩ := h1 _ hl
    cases h2
    refine ok_kept hS ?_ h3
    have hs1 : s ≠ .interface := by
      rintro rfl
      obtain ⟨j, i, h4, -, h5⟩ := table_iface ht
      have hat : objs (oid items j) = .interface _ := B.item j _ h4
      rw [← h5, e] at hat
      cases hat
    have hs2 : s ≠ .names := by rintro rfl; cases ht
    obtain ⟨k, rfl⟩ := sectOf_surj hs1 hs2
    obtain ⟨j, hk, h4⟩ := (table_iff R k m _).1 ht
    rw [oid_inj h4]
    exact .kept hk

theorem part_name (B : ObjectsOf objs items) {o : Oid} (h : size items ≤ o) : nameOf objs o = none := by
  rcases B.parts o h with e | e | ⟨n, e⟩ | ⟨n, e⟩ <;> simp [nameOf, e]

theorem le_size (items : List Item) : (rulesOf items).length ≤ size items := Nat.le_add_right _ _

/-- What the theorems about pages ask of tables and objects. -/
theorem wellFormed (B : ObjectsOf objs items) (R : Refs items) (hS : Settled items) : WellFormed objs (tb items) where
  rules o ho := by
    rw [rules_eq R] at ho
    obtain ⟨k, i, r, -, -, -, p, sh, sp, dh, dp, ic, e, -⟩ := rule_at B (List.mem_range.1 ho)
    exact ⟨_, _, _, _, _, _, _, _, e⟩
  nat o ho := by rw [nat_nil R] at ho; cases ho
  nodup s := by
    by_cases h1 : s = .interface
    · subst h1
      rw [table_eq]
      show (dKeys ((Config.build _ _ _).interfaces.map fun p => (p.1, p.2.oid))).Nodup
      unfold dKeys
      rw [List.map_map]
      show (dKeys (Config.build (IosConfig.agName items) (fun _ => []) (Static.iosLinked items)).interfaces).Nodup
      rw [show Config.build (IosConfig.agName items) (fun _ => []) (Static.iosLinked items) =
        Config.run (IosConfig.agName items) (fun _ => []) (Static.iosLinked items) (Static.iosLinked items) from rfl, (Config.run_ifaces _ _ _ _).1]
      exact Config.eraseDups_nodup _
    · by_cases h2 : s = .names
      · subst h2; exact List.nodup_nil
      · obtain ⟨k, rfl⟩ := sectOf_surj h1 h2
        rw [table_eq, table_of_sect]
        exact table_nodup _ _ _ _ k
  table s n o hs hd := by
    by_cases h2 : s = .names
    · subst h2; cases hd
    · obtain ⟨k, rfl⟩ := sectOf_surj hs h2
      obtain ⟨p, ⟨⟨i, h1, h3⟩, -⟩, rfl⟩ := (table_iff R k n o).1 hd
      exact (defined_name B R h1 h3).1
  ifaces n o hd := by
    obtain ⟨p, i, h1, -, rfl⟩ := table_iface hd
    exact ⟨_, B.item p _ h1⟩
  members o c n l e x hx := by
    obtain ⟨p, -, h⟩ := member_ok B R e
    obtain ⟨q, h1, -⟩ := h x hx
    exact ⟨q, h1⟩
  noNames := rfl
  names o ho := by rw [names_nil R] at ho; cases ho
  listed o s n hr hn := by
    rcases refers_ok B R hS hr with h | ⟨p, c, m, rfl, hk⟩
    · rw [part_name B h] at hn; cases hn
    · obtain ⟨⟨i, h1, h2⟩, -⟩ := id hk
      rw [(defined_name B R h1 h2).1] at hn
      cases hn
      exact ⟨(sectOf_ne c).2, (table_iff R c _ _).2 ⟨p, hk, rfl⟩⟩
  target o t hr e := by
    rcases refers_ok B R hS hr with h | ⟨p, c, m, rfl, ⟨i, h1, h2⟩, -⟩
    · rcases B.parts o h with e' | e' | ⟨n, e'⟩ | ⟨n, e'⟩ <;> rw [e] at e' <;> cases e'
    · obtain ⟨-, _, _, e'⟩ := defined_name B R h1 h2
      rw [e] at e'; cases e'
  fresh o hr := by
    refine ⟨fun ho => ?_, fun ho => by rw [nat_nil R] at ho; cases ho⟩
    rw [rules_eq R] at ho
    have hlt := List.mem_range.1 ho
    rcases refers_ok B R hS hr with h | ⟨p, c, m, rfl, -⟩
    · exact absurd (Nat.lt_of_lt_of_le hlt (Nat.le_trans (le_size items) h)) (Nat.lt_irrefl _)
    · exact absurd (Nat.lt_of_lt_of_le hlt (Nat.le_add_right _ _)) (Nat.lt_irrefl _)
  addresses o n l e := by
    rcases obj_cases B o with ⟨-, _, _, _, _, _, _, _, e'⟩ | ⟨p, i, rfl, hi, hat⟩ | ⟨-, e' | e' | ⟨m, e'⟩ | ⟨m, e'⟩⟩ <;>
      first | (rw [e] at e'; cases e'; done) | skip
    cases i with
    | base j =>
      cases j <;> first
        | (obtain ⟨_, e', -⟩ := hat; rw [e] at e'; cases e'; done)
        | (have e' : objs (oid items p) = _ := hat; rw [e] at e'; cases e'; done)
    | _ => have e' : objs (oid items p) = _ := hat; rw [e] at e'; cases e'

theorem protoName (B : ObjectsOf objs items) (R : Refs items) {k : Nat} {i : Item} {v : AclText.Proto} (hi : items[k]? = some i) (hv : ∀ q ∈ protoIds v, q ∈ idsOf i)
    {p : El} (hp : ProtoAt objs items v p) : ∃ n, protocolName objs p = some n := by
  have key : ∀ c o, (c = .svcGroup ∨ c = .protoGroup ∨ c = .svcObj) → (c, o) ∈ protoIds v → IdAt items o p → ∃ n, protocolName objs p = some n := by
    intro c o hc hf hid
    obtain ⟨q, d, n, rfl, h1, h2, -⟩ := id_ok R hi (hv _ hf) hid
    have := (defined_name B R h1 h2).1
    refine ⟨n, ?_⟩
    unfold nameOf at this
    unfold protocolName
    rcases hc with rfl | rfl | rfl <;> split at this <;> simp [sectOf] at this <;> simp_all
  cases v with
  | name n =>
    obtain ⟨q, rfl, -, e⟩ := hp
    exact ⟨n, by simp [protocolName, e]⟩
  | svcGroup o => exact key .svcGroup o (by simp) (by simp [protoIds]) hp
  | protoGroup o => exact key .protoGroup o (by simp) (by simp [protoIds]) hp
  | svcObj o => exact key .svcObj o (by simp) (by simp [protoIds]) hp

/-- What `resolve` asks for. -/
theorem holdsCfg (B : ObjectsOf objs items) (R : Refs items) : ∃ U, HoldsCfg (T := T) (info objs) (.ios items) U := by
  obtain ⟨all, hall⟩ := B.finite
  have hmem : ∀ o y, y ∈ contents objs o → y ∈ all.flatMap fun o => .obj o :: contents objs o := by
    intro o y hy
    have : o ∈ all := by
      refine hall o fun e => ?_
      simp [contents, e] at hy
    exact List.mem_flatMap.2 ⟨o, this, List.mem_cons_of_mem _ hy⟩
  have hrule : ∀ k x, RuleAt (T := T) (.ios items) k x → ∃ r n, info objs k = .rule r ∧ r.id = listOf x ∧ r.protoName = some n := by
    rintro j x ⟨r, h1, rfl⟩
    obtain ⟨k, i, r', h2, h3, h4, p, sh, sp, dh, dp, ic, e, hp, -⟩ := rule_at B (List.getElem?_eq_some_iff.1 h1).1
    rw [h1] at h2
    cases h2
    obtain ⟨n, hn⟩ := protoName B R h3 (fun q hq => rule_id h4 (by unfold ruleIds; simp [hq])) hp
    refine ⟨⟨p, protocolName objs p, sh, sp, dp, dh, some r.id, ic, []⟩, n, by simp [info, e], rfl, hn⟩
  refine ⟨all.flatMap fun o => .obj o :: contents objs o, hrule, fun k x h => h.elim, ?_, fun k x y _ hy => hmem k y (field_contents hy), fun o y _ hy => hmem o y (pulls_contents hy)⟩
  intro k x hx
  have : k ∈ all := by
    refine hall k fun e => ?_
    rcases hx with hx | hx
    · obtain ⟨r, n, h1, -⟩ := hrule k x hx
      simp [info, e] at h1
    · exact hx.elim
  exact List.mem_flatMap.2 ⟨k, this, List.mem_cons_self ..⟩

end Acltk.IosPage

namespace Acltk.Static
open Acltk Acltk.Lookup Acltk.Detect Acltk.DetectText Acltk.Caf Acltk.Resolve Acltk.ExpandFilter Acltk.Web
open Acltk.Accepted (RuleAt NatAt HoldsCfg InUse listOf)
open Acltk.ConfigFilter (select)
open Acltk.Page (WellFormed Completes Listed OnPage Anchored)
open Acltk.IosPage (ObjectsOf Settled Kept oid)
open Acltk.IosText (rulesOf)
open Acltk.FileText (Holds)

variable {T : Type}

theorem ios_refs {g : Guard} {pf : String → Detect.Outcome (Nat × Pf.Parsed T) Unit} {t : String} {items : List IosText.Item}
    (hc : detect g pf t = .config (.ios items)) : IosPage.Refs items := by
  obtain ⟨u, hp⟩ := Accepted.detect_inv hc
  exact IosPage.refs_of hp

/-- What the theorems about pages ask of the objects holds of the objects of every accepted IOS text whose references are to the definitions that are kept. -/
theorem ios_wellFormed {g : Guard} {pf : String → Detect.Outcome (Nat × Pf.Parsed T) Unit} {t : String} {items : List IosText.Item}
    (hc : detect g pf t = .config (.ios items)) {objs : Oid → Page.Obj} (B : ObjectsOf objs items) (hS : Settled items) :
    WellFormed objs (tables (T := T) (.ios items)) ∧ ∃ U, HoldsCfg (T := T) (Page.info objs) (.ios items) U :=
  ⟨IosPage.wellFormed B (ios_refs hc) hS, IosPage.holdsCfg B (ios_refs hc)⟩

/-- **C113, what is listed.** The tables behind the page of an IOS text: the rules in the order of the text, no NAT entries, under each name of a group the object of the last definition
of that kind and name, under the name of an interface an interface of that name, and nothing else. -/
theorem C113_listed {g : Guard} {pf : String → Detect.Outcome (Nat × Pf.Parsed T) Unit} {t : String} {items : List IosText.Item}
    (hc : detect g pf t = .config (.ios items)) {objs : Oid → Page.Obj} (_B : ObjectsOf objs items) :
    (tables (T := T) (.ios items)).rules = List.range (rulesOf items).length ∧ (tables (T := T) (.ios items)).nat = [] ∧
    (∀ c n o, Listed objs (tables (T := T) (.ios items)) (Page.sectOf c) n o ↔ ∃ p, Kept items c n p ∧ o = oid items p) ∧
    (∀ n o, Listed objs (tables (T := T) (.ios items)) .interface n o → ∃ (p : Nat) (i : Ifc.Intf), items[p]? = some (.base (.iface i)) ∧ i.alias = n ∧ o = oid items p) ∧
    (∀ (p : Nat) (i : Ifc.Intf), items[p]? = some (.base (.iface i)) → ∃ o, Listed objs (tables (T := T) (.ios items)) .interface i.alias o) ∧
    ∀ n o, ¬ Listed objs (tables (T := T) (.ios items)) .names n o := by
  have R := ios_refs hc
  refine ⟨IosPage.rules_eq R, IosPage.nat_nil R, ?_, ?_, ?_, ?_⟩
  · intro c n o
    unfold Listed
    rw [if_neg (Page.sectOf_ne c).2]
    exact IosPage.table_iff R c n o
  · intro n o h
    unfold Listed at h
    rw [if_neg (by simp)] at h
    exact IosPage.table_iface h
  · intro p i hi
    obtain ⟨o, ho⟩ := IosPage.table_iface_all hi
    exact ⟨o, by unfold Listed; rw [if_neg (by simp)]; exact ho⟩
  · intro n o h
    unfold Listed at h
    rw [if_pos rfl] at h
    have : o ∈ (IosPage.tb items).names := h.1
    rw [IosPage.names_nil R] at this
    cases this

/-- **C113, without a filter.** For every settled IOS text the page shows all of it; nothing is written exactly if `--sort` meets a member without a key. -/
theorem C113_no_filter_partial (s : Site T) (args : Args) (hcaf : args.caf = none) (hexp : args.expand = false) (file : List UInt8) (t : List Char) (ht : Holds t file)
    (items : List IosText.Item) (hc : detect s.guard (PfFilter.parser s.xml s.env) (String.ofList t) = .config (.ios items))
    (B : ObjectsOf (s.objs false (.ios items)) items) (hS : Settled items) (hK : (s.keys false (.ios items)).Total) :
    (main s args file = .raises ∧ args.sort = true ∧ NoKey (s.keys false (.ios items)) (s.objs false (.ios items)) (tables (T := T) (.ios items))) ∨
    ((args.sort = true → ¬ NoKey (s.keys false (.ios items)) (s.objs false (.ios items)) (tables (T := T) (.ios items))) ∧ ∃ w, main s args file = .written w ∧
      Members (s.keys false (.ios items)) (s.objs false (.ios items)) (tables (T := T) (.ios items)) args.sort w.objs ∧ Shows s (.ios items) w.objs none args.sns w) := by
  have := C104_no_filter_partial s args hcaf file t ht (.ios items) hc (by rw [hexp]; intro h; cases h)
    (by rw [hexp]; exact (ios_wellFormed hc B hS).1) (by rw [hexp]; exact hK)
  rwa [hexp] at this

/-- **C113, with a filter.** For every settled IOS text and every filter the page shows what the filter selects, with everything that refers to; nothing is written
exactly if the filter selects a rule of a list that is bound to an interface (C44) or `--sort` meets a member without a key. -/
theorem C113_page_partial (s : Site T) (args : Args) (hexp : args.expand = false) (file : List UInt8) (t : List Char) (ht : Holds t file)
    (items : List IosText.Item) (hc : detect s.guard (PfFilter.parser s.xml s.env) (String.ofList t) = .config (.ios items))
    (ff : List UInt8) (hcaf : args.caf = some ff) (ft : List Char) (hft : Holds ft ff) (e : Expr) (rest : List Char)
    (hf : CafText.parse s.guard s.nest ft = .ok e rest)
    (B : ObjectsOf (s.objs false (.ios items)) items) (hS : Settled items) (hK : (s.keys false (.ios items)).Total)
    (ho0 : ∀ r x, x ∈ s.order0 r ↔ x ∈ r) (hord : ∀ n r x, x ∈ s.order n r ↔ x ∈ r) :
    ∃ N, ∀ fuel rounds, N ≤ fuel → N ≤ rounds → ∃ sel,
      select s.guard (PfFilter.parser s.xml s.env) (PfFilter.filter fuel) s.nest fuel ft (String.ofList t) = some (.ok sel) ∧
      let p := main { s with fuel := fuel, rounds := rounds } args file
      let raising := (∃ k x n, k ∈ sel ∧ RuleAt (T := T) (.ios items) k x ∧ listOf x = some n ∧ InUse (T := T) (.ios items) n) ∨
        args.sort = true ∧ NoKey (s.keys false (.ios items)) (s.objs false (.ios items)) (tables (T := T) (.ios items))
      (p = .raises ∧ raising) ∨
      (¬ raising ∧ ∃ w, p = .written w ∧ Members (s.keys false (.ios items)) (s.objs false (.ios items)) (tables (T := T) (.ios items)) args.sort w.objs ∧
          Shows s (.ios items) w.objs (some sel) args.sns w) := by
  obtain ⟨W, U, hU⟩ := ios_wellFormed hc B hS
  obtain ⟨N, h⟩ := C104_page_partial s args file t ht (.ios items) hc ff hcaf ft hft e rest hf (by rw [hexp]; intro h; cases h)
    (by rw [hexp]; exact W) (by rw [hexp]; exact hK) U (by rw [hexp]; exact hU) ho0 hord
  refine ⟨N, fun fuel rounds h1 h2 => ?_⟩
  obtain ⟨sel, i1, i2⟩ := h fuel rounds h1 h2
  refine ⟨sel, i1, ?_⟩
  rw [hexp] at i2
  rcases i2 with ⟨p1, p2⟩ | ⟨p1, p2, p3⟩
  · exact Or.inl ⟨p1, p2⟩
  · exact Or.inr ⟨fun hh => hh.elim (fun h => p1 h) (fun h => p2 h.1 h.2), p3⟩

/-- **C113, links.** On the page of a settled IOS text, whatever rules are selected, every link but those to interfaces has its anchor. -/
theorem C113_links_partial {g : Guard} {pf : String → Detect.Outcome (Nat × Pf.Parsed T) Unit} {t : String} {items : List IosText.Item}
    (hc : detect g pf t = .config (.ios items)) {objs : Oid → Page.Obj} (B : ObjectsOf objs items) (hS : Settled items)
    (lower : String → String) (inactive : Oid → Bool) (chosen : List Oid) (sel : Page.Sel)
    (hsel : Completes objs (tables (T := T) (.ios items)) chosen sel) (sns : Bool) (o : Oid)
    (ho : OnPage lower objs (idOf objs) inactive (tables (T := T) (.ios items)) sel sns o) (l : Page.Link) (hl : l ∈ Page.links objs o) (hi : l.1 ≠ .interface) :
    Anchored lower objs (tables (T := T) (.ios items)) sel sns l :=
  Page.C102_links_partial lower objs (idOf objs) inactive _ (ios_wellFormed hc B hS).1 chosen sel hsel sns o ho l hl hi

end Acltk.Static
