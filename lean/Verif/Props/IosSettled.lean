import Verif.Lemmas.FwsmIcmp
import Verif.Props.IosObjects
import Verif.Props.FwsmSettled
/-!
# C113: exactly the settled IOS texts have references that are listed
-/
namespace Acltk.IosText
open Acltk Acltk.Lookup Acltk.Peg Acltk.AclText
open Acltk.FwsmText (Val val_oneOf)

variable {g : Guard} {s : FwsmText.St} {e : Env}

/-- What is known of a rule with an ICMP type. -/
def RuleIcmp (r : IRule) : Prop := r.icmp = none ∨ r.protocol = .name "icmp" ∨ r.protocol = .name "icmp6"

/-- A rule without an ICMP type. -/
macro "no_icmp" : tactic => `(tactic| repeat (first
  | exact Val.pure (Or.inl rfl)
  | exact Val.alts_nil
  | refine Val.alts_cons ?_ ?_
  | refine Val.alt ?_ ?_
  | refine Val.skip fun _ => ?_))

theorem icmp_name {p : P String} (hp : Val p (· ∈ ["icmp", "icmp6"])) {f : String → P IRule} (h : ∀ n, n = "icmp" ∨ n = "icmp6" → Val (f n) RuleIcmp) : Val (p >>= f) RuleIcmp :=
  Val.bind hp fun n hn => h n (by simpa using hn)

theorem icmp_ok {r : IRule} {n : String} (h : n = "icmp" ∨ n = "icmp6") (e : r.protocol = .name n) : RuleIcmp r := by
  rcases h with rfl | rfl
  · exact Or.inr (Or.inl e)
  · exact Or.inr (Or.inr e)

theorem icmp_numExtended : Val (numExtended e) RuleIcmp := by
  unfold numExtended
  refine Val.alt ?_ ?_
  · exact Val.skip fun ⟨_, _⟩ => icmp_name (val_oneOf _) fun n hn => Val.skip fun _ => Val.skip fun _ => Val.skip fun _ => Val.skip fun _ => Val.skip fun _ => Val.skip fun _ => Val.skip fun _ =>
      Val.pure (icmp_ok hn rfl)
  · exact Val.skip fun ⟨_, _⟩ => Val.skip fun _ => Val.skip fun _ => Val.skip fun _ => Val.skip fun _ => Val.skip fun _ => Val.skip fun _ => Val.skip fun _ => Val.pure (Or.inl rfl)

theorem icmp_numStandard : Val (numStandard e) RuleIcmp := by
  unfold numStandard
  exact Val.skip fun ⟨_, _⟩ => Val.skip fun _ => Val.skip fun _ => Val.skip fun _ => Val.pure (Or.inl rfl)

theorem icmp_accessList : Val (accessList e) RuleIcmp := by
  unfold accessList
  exact Val.alt (val_remarked icmp_numExtended fun _ _ h => h) (val_remarked icmp_numStandard fun _ _ h => h)

theorem icmp_namedExtended : Val (namedExtended e) RuleIcmp := by
  unfold namedExtended
  refine Val.alts_cons ?_ <| Val.alts_cons ?_ <| Val.alts_cons ?_ Val.alts_nil
  · exact Val.skip fun _ => icmp_name (val_oneOf _) fun n hn => Val.skip fun _ => Val.skip fun _ => Val.skip fun _ => Val.skip fun _ => Val.skip fun _ => Val.skip fun _ => Val.skip fun _ =>
      Val.pure (icmp_ok hn rfl)
  · no_icmp
  · no_icmp

theorem icmp_namedStandard : Val (namedStandard e) RuleIcmp := by
  unfold namedStandard
  no_icmp

theorem icmp_namedEntry {p : P IRule} (hp : Val p RuleIcmp) : Val (namedEntry g p) RuleIcmp := by
  unfold namedEntry
  exact val_remarked (Val.skip fun _ => hp) fun _ _ h => h

theorem icmp_map {l : List IRule} (h : ∀ r ∈ l, RuleIcmp r) {f : IRule → IRule} (hf : ∀ r, (f r).icmp = r.icmp ∧ (f r).protocol = r.protocol) : ∀ r ∈ l.map f, RuleIcmp r := by
  intro r hr
  obtain ⟨x, hx, rfl⟩ := List.mem_map.1 hr
  unfold RuleIcmp
  rw [(hf x).1, (hf x).2]
  exact h x hx

theorem icmp_ipAccessList : Val (ipAccessList e) (fun l => ∀ r ∈ l, RuleIcmp r) := by
  unfold ipAccessList
  exact Val.alt
    (Val.skip fun _ => Val.skip fun _ => Val.skip fun n => Val.skip fun _ => Val.bind (Val.many (icmp_namedEntry icmp_namedStandard)) fun l hl =>
      Val.pure (icmp_map hl fun _ => ⟨rfl, rfl⟩))
    (Val.skip fun _ => Val.skip fun _ => Val.skip fun n => Val.skip fun _ => Val.bind (Val.many (icmp_namedEntry icmp_namedExtended)) fun l hl =>
      Val.pure (icmp_map hl fun _ => ⟨rfl, rfl⟩))

theorem icmp_ip6AccessList : Val (ip6AccessList e) (fun l => ∀ r ∈ l, RuleIcmp r) := by
  have hr : Val (ip6Rule e) RuleIcmp := by
    unfold ip6Rule
    no_icmp
  have hq : Val (ip6Seq e) RuleIcmp := by
    unfold ip6Seq
    exact Val.skip fun _ => Val.skip fun _ => Val.skip fun _ => Val.skip fun _ => Val.skip fun _ => Val.bind hr fun r hr => Val.pure hr
  unfold ip6AccessList
  exact Val.skip fun _ => Val.skip fun _ => Val.skip fun n => Val.skip fun _ => Val.bind (Val.many1 hq) fun l hl => Val.pure (icmp_map hl fun _ => ⟨rfl, rfl⟩)

/-- What is known of an element. -/
def ItemIcmp (i : Item) : Prop := ∀ r ∈ itemRules i, RuleIcmp r

theorem icmp_none {i : Item} (h : itemRules i = []) : ItemIcmp i := by
  intro r hr; rw [h] at hr; cases hr

theorem icmp_keep {p : P Item} (hp : Val p ItemIcmp) : Val (keep s p) (fun x => ItemIcmp x.1) := by
  unfold keep
  exact Val.bind hp fun _ hi => Val.pure hi

theorem icmp_base (p : P FwsmText.Item) : Val (base p) ItemIcmp := Val.skip fun _ => Val.pure (icmp_none rfl)

theorem icmp_command : Val (command s) (fun x => ItemIcmp x.1) := by
  have ign : ∀ l, Val (do ignoredOf s.env.guard l; pure (Item.base .nothing)) ItemIcmp := fun l => Val.skip fun _ => Val.pure (icmp_none rfl)
  unfold command
  refine Val.alts_cons (icmp_keep (icmp_base _)) <| Val.alts_cons (icmp_keep (icmp_base _)) <| Val.alts_cons (icmp_keep (icmp_base _)) <|
    Val.alts_cons ?_ <| Val.alts_cons ?_ <| Val.alts_cons (icmp_keep ?_) <| Val.alts_cons (icmp_keep ?_) <|
    Val.alts_cons (icmp_keep ?_) <| Val.alts_cons (icmp_keep ?_) Val.alts_nil
  · unfold interface
    exact Val.skip fun _ => Val.skip fun _ => Val.skip fun _ => Val.skip fun _ => Val.skip fun _ => Val.skip fun i => Val.pure (icmp_none rfl)
  · unfold objectGroup
    exact Val.skip fun _ => Val.skip fun _ => Val.skip fun ⟨i, s'⟩ => Val.pure (icmp_none rfl)
  · unfold ruleCommand
    refine Val.bind icmp_accessList fun r hr => Val.pure ?_
    intro x hx
    simp only [itemRules, List.mem_cons, List.not_mem_nil, or_false] at hx
    subst hx
    exact hr
  · unfold ip
    refine Val.skip fun _ => Val.skip fun _ => Val.alts_cons ?_ <| Val.alts_cons ?_ <| Val.alts_cons ?_ <| Val.alts_cons ?_ Val.alts_nil
    · unfold ipLists
      exact Val.skip fun _ => Val.skip fun _ => Val.bind icmp_ipAccessList fun l hl => Val.pure hl
    · unfold ipDomain
      exact Val.skip fun _ => Val.skip fun _ => Val.skip fun _ => Val.pure (icmp_none rfl)
    · unfold ipRoutes ipRoute routeTo
      refine Val.skip fun _ => Val.skip fun _ => Val.alt (Val.skip fun _ => Val.skip fun _ => Val.pure (icmp_none rfl)) ?_
      exact Val.skip fun _ => Val.skip fun _ => Val.skip fun _ => Val.skip fun _ => Val.skip fun _ => Val.skip fun _ => Val.skip fun _ => Val.pure (icmp_none rfl)
    · unfold ipRest
      exact ign _
  · unfold ipv6
    refine Val.skip fun _ => Val.skip fun _ => Val.alt ?_ (ign _)
    exact Val.bind icmp_ip6AccessList fun l hl => Val.pure hl
  · unfold ignoredCommand
    exact Val.skip fun _ => Val.pure (icmp_none rfl)

theorem parseFile_icmp {t r : Text} {items : List Item} (h : parseFile g t = .ok items r) : ∀ i ∈ items, ItemIcmp i := by
  have key : ∀ {l s' u}, commands { env := { guard := g } } t = .ok (l, s') u → ∀ i ∈ l, ItemIcmp i := by
    intro l s' u hc i hi
    obtain ⟨h1, -⟩ := commands_hist (S := fun _ _ => True) (I := fun _ i => ItemIcmp i)
      (fun b s _ t x r hx => ⟨icmp_command t x r hx, trivial⟩) _ [] _ _ _ _ _ rfl trivial hc
    obtain ⟨k, hk, e⟩ := List.mem_iff_getElem.1 hi
    exact h1 k i (by rw [← e]; exact List.getElem?_eq_getElem hk)
  unfold parseFile at h
  split at h
  · rename_i l s' u hc
    split at h
    · cases h
    · split at h
      · cases h; exact key hc
      · split at h
        · cases h; exact key hc
        · cases h
  · cases h
  · cases h

end Acltk.IosText

namespace Acltk.IosPage
open Acltk Acltk.Resolve
open Acltk.Page hiding Item Part HostAt IdAt PortAt ProtoAt IcmpAt PortMemberAt SvcMemberAt IcmpMemberAt ProtoMemberAt ItemAt ObjectsOf Kept RefersTo Live Settled Once
  once_settled refersTo_def has_host has_id has_of field_item group_kept refersTo_elem
open Acltk.FwsmText (netGroupDef idDef identOf portIds protoIds icmpIds)
open Acltk.IosText (Item IRule rulesOf defs hostsOf idsOf itemRules ruleIds)

variable {objs : Oid → Obj} {items : List Item}

/-- A text that defines no name twice is settled. -/
theorem once_settled (h : Once items) : Settled items := by
  intro k c n p _ hr
  have key : (∃ i, (defs items)[p]? = some i ∧ defName c i = some n) → Kept items c n p := by
    rintro ⟨i, h1, h2⟩
    refine ⟨⟨i, h1, h2⟩, fun q j hj hd => ?_⟩
    rw [h c n p q i j h1 hj h2 hd]
    exact Nat.le_refl _
  cases hr with
  | group _ _ hf =>
    obtain ⟨-, ⟨i, v, h1, h2⟩, -⟩ := hf
    exact key ⟨i, h1, netGroup_name h2⟩
  | id _ _ h1 h2 => exact key ⟨_, h1, (idDef_spec h2).2.1⟩

theorem refersTo_def {k p : Nat} {c : Config.Kind} {n : String} (h : RefersTo items k c n p) : ∃ i, (defs items)[p]? = some i ∧ defName c i = some n := by
  cases h with
  | group _ _ hf =>
    obtain ⟨-, ⟨i, v, h1, h2⟩, -⟩ := hf
    exact ⟨i, h1, netGroup_name h2⟩
  | id _ _ h1 h2 => exact ⟨_, h1, (idDef_spec h2).2.1⟩

/-- What an element contains: its rules, or its members. -/
inductive HasAt (objs : Oid → Obj) (items : List Item) (k : Nat) (o : Oid) : Prop
  | field {j : Nat} : j < (rulesOf items).length → Field (info objs) j (.obj o) → HasAt objs items k o
  | member {c n l} : objs (oid items k) = .group c n l → .obj o ∈ l → HasAt objs items k o

/-- Every rule of an element has a number. -/
theorem element_rule : ∀ {items : List Item} {k : Nat} {i : Item} {r : IRule}, items[k]? = some i → r ∈ itemRules i →
    ∃ j : Nat, (rulesOf items)[j]? = some r ∧ InElement items j k := by
  intro items
  induction items with
  | nil => intro k i r h; simp at h
  | cons a t ih =>
    intro k i r h hr
    have e : ∀ l : List Item, rulesOf (a :: l) = itemRules a ++ rulesOf l := by intro l; rw [rulesOf_eq, List.flatMap_cons, rulesOf_eq]
    cases k with
    | zero =>
      simp only [List.getElem?_cons_zero, Option.some.injEq] at h
      subst h
      obtain ⟨j, hj⟩ := List.mem_iff_getElem?.1 hr
      have hlt := (List.getElem?_eq_some_iff.1 hj).1
      refine ⟨j, ?_, ⟨by simp [rulesOf], ?_⟩⟩
      · rw [e, List.getElem?_append_left hlt, hj]
      · rw [List.take_succ_cons, e, List.length_append]
        exact Nat.lt_of_lt_of_le hlt (Nat.le_add_right _ _)
    | succ k =>
      obtain ⟨j, h1, h2, h3⟩ := ih (k := k) (by simpa using h) hr
      refine ⟨(itemRules a).length + j, ?_, ?_, ?_⟩
      · rw [e, List.getElem?_append_right (Nat.le_add_right _ _), Nat.add_sub_cancel_left, h1]
      · rw [List.take_succ_cons, e, List.length_append]
        exact Nat.add_le_add_left h2 _
      · rw [List.take_succ_cons, e, List.length_append]
        exact Nat.add_lt_add_left h3 _

/-- The objects of the hosts of an element. -/
theorem has_host (B : ObjectsOf objs items) {k : Nat} {i : Item} (hi : items[k]? = some i) {h : Host} (hm : h ∈ hostsOf i) :
    ∃ e, HostAt objs items k h e ∧ ∀ o, e = .obj o → HasAt objs items k o := by
  unfold IosText.hostsOf at hm
  rcases List.mem_append.1 hm with hm | hm
  · obtain ⟨r, hr, hh⟩ := List.mem_flatMap.1 hm
    obtain ⟨j, h1, h2⟩ := element_rule hi hr
    have hlt := (List.getElem?_eq_some_iff.1 h1).1
    obtain ⟨p, sh, sp, dh, dp, ic, e, h3, h4, h5, h6, h7, h8⟩ := B.rule j k r h1 h2
    have hinf : info objs j = .rule ⟨p, protocolName objs p, sh, sp, dp, dh, some r.id, ic, []⟩ := by simp [info, e]
    simp only [List.mem_cons, List.not_mem_nil, or_false] at hh
    rcases hh with rfl | rfl
    · exact ⟨_, h4, fun o ho => .field hlt (ho ▸ Field.srcHost hinf)⟩
    · exact ⟨_, h6, fun o ho => .field hlt (ho ▸ Field.dstHost hinf)⟩
  · cases i with
    | base b =>
      cases b with
      | netGroup m l d =>
        obtain ⟨ms, h1, h2⟩ := B.item k _ hi
        obtain ⟨e, he, hr⟩ := each_get h2 hm
        exact ⟨e, hr, fun o ho => .member h1 (ho ▸ he)⟩
      | _ => cases hm
    | _ => cases hm

/-- The objects of the identities of an element. -/
theorem has_id (B : ObjectsOf objs items) (hI : ∀ i ∈ items, IosText.ItemIcmp i) {k : Nat} {i : Item} (hi : items[k]? = some i) {c : Config.Kind} {o : Nat}
    (hm : (c, o) ∈ idsOf i) {p : Nat} {j : FwsmText.Item} {n : String} (hj : (defs items)[p]? = some j) (hd : idDef c j = some (n, o)) : HasAt objs items k (oid items p) := by
  have hid := (idDef_spec hd).1
  have at_ : ∀ {e : El}, IdAt items o e → e = .obj (oid items p) := fun h => h p j hj hid
  unfold IosText.idsOf at hm
  rcases List.mem_append.1 hm with hm | hm
  · obtain ⟨r, hr, hm⟩ := List.mem_flatMap.1 hm
    obtain ⟨a, ha, hk⟩ := element_rule hi hr
    have hlt := (List.getElem?_eq_some_iff.1 ha).1
    have hicmp := hI _ (List.mem_iff_getElem?.2 ⟨k, hi⟩) r hr
    obtain ⟨pr, sh, sp, dh, dp, ic, e, h1, h2, h3, h4, h5, h6⟩ := B.rule a k r ha hk
    have hinf : info objs a = .rule ⟨pr, protocolName objs pr, sh, sp, dp, dh, some r.id, ic, []⟩ := by simp [info, e]
    have hport : ∀ {v : Option AclText.PortVal} {e : El}, (c, o) ∈ portIds v → PortAt objs items v e → e = .obj (oid items p) := by
      intro v e hv he
      rcases v with _ | ⟨_ | _ | w | _⟩ <;> simp [portIds] at hv
      obtain ⟨rfl, rfl⟩ := hv
      exact at_ he
    simp only [ruleIds, List.mem_append] at hm
    rcases hm with ((hm | hm) | hm) | hm
    · have : pr = .obj (oid items p) := by
        generalize r.protocol = v at hm h1
        cases v <;> simp [protoIds] at hm
        all_goals (obtain ⟨rfl, rfl⟩ := hm; exact at_ h1)
      exact .field hlt (this ▸ Field.protocol hinf)
    · exact .field hlt (hport hm h3 ▸ Field.srcPort hinf)
    · exact .field hlt (hport hm h5 ▸ Field.dstPort hinf)
    · unfold IosText.RuleIcmp at hicmp
      generalize hv : r.icmp = v at hm h6 hicmp
      rcases v with _ | ⟨_ | w⟩ <;> simp [icmpIds] at hm
      obtain ⟨rfl, rfl⟩ := hm
      obtain ⟨x, rfl, hx⟩ := h6
      have hx := at_ hx
      subst hx
      have hname : protocolName objs pr = some "icmp" ∨ protocolName objs pr = some "icmp6" := by
        rcases hicmp with h | h | h
        · cases h
        · rw [h] at h1; obtain ⟨q, rfl, -, e⟩ := h1; exact Or.inl (by simp [protocolName, e])
        · rw [h] at h1; obtain ⟨q, rfl, -, e⟩ := h1; exact Or.inr (by simp [protocolName, e])
      exact .field hlt (Field.icmp hinf hname rfl)
  · have hat := B.item k i hi
    rcases i with b | _ | _ | _ <;> first | (cases hm; done) | skip
    cases b with
    | portGroup w m pr hs d =>
      obtain ⟨ms, h1, h2⟩ := hat
      obtain ⟨y, hy, hyo⟩ := List.mem_flatMap.1 hm
      obtain ⟨e, he, hr⟩ := each_get h2 hy
      cases y <;> simp at hyo
      obtain ⟨rfl, rfl⟩ := hyo
      exact .member h1 (at_ hr ▸ he)
    | svcGroup w m hs d =>
      obtain ⟨ms, h1, h2⟩ := hat
      obtain ⟨y, hy, hyo⟩ := List.mem_flatMap.1 hm
      obtain ⟨e, he, hr⟩ := each_get h2 hy
      cases y <;> simp at hyo
      all_goals (obtain ⟨rfl, rfl⟩ := hyo; exact .member h1 (at_ hr ▸ he))
    | icmpGroup w m hs d =>
      obtain ⟨ms, h1, h2⟩ := hat
      obtain ⟨y, hy, hyo⟩ := List.mem_flatMap.1 hm
      obtain ⟨e, he, hr⟩ := each_get h2 hy
      cases y <;> simp at hyo
      obtain ⟨rfl, rfl⟩ := hyo
      exact .member h1 (at_ hr ▸ he)
    | protoGroup w m hs d =>
      obtain ⟨ms, h1, h2⟩ := hat
      obtain ⟨y, hy, hyo⟩ := List.mem_flatMap.1 hm
      obtain ⟨e, he, hr⟩ := each_get h2 hy
      cases y <;> simp at hyo
      obtain ⟨rfl, rfl⟩ := hyo
      exact .member h1 (at_ hr ▸ he)
    | _ => cases hm

/-- Every reference of an element is one of its rules or of its object. -/
theorem has_of (B : ObjectsOf objs items) (hI : ∀ i ∈ items, IosText.ItemIcmp i) {k p : Nat} {c : Config.Kind} {n : String} (h : RefersTo items k c n p) :
    HasAt objs items k (oid items p) := by
  cases h with
  | group hi hm hf =>
    obtain ⟨e, h1, h2⟩ := has_host B hi hm
    exact h2 _ (h1 p hf)
  | id hi hm hj hd => exact has_id B hI hi hm hj hd

/-- The element of a group object that the configuration has is kept. -/
theorem group_kept (B : ObjectsOf objs items) {k : Nat} (hl : Live items k) {c : GroupClass} {n : String} {l : List El} (e : objs (oid items k) = .group c n l) :
    ∃ c n, Kept items c n k := by
  cases hl with
  | @rules i h hr =>
    have hat := B.item k i h
    rcases i with b | _ | _ | _
    · exact absurd rfl hr
    all_goals (have hat : objs (oid items k) = .other := hat; rw [e] at hat; cases hat)
  | kept h => exact ⟨_, _, h⟩

end Acltk.IosPage

namespace Acltk.Static
open Acltk Acltk.Lookup Acltk.Detect Acltk.DetectText Acltk.Resolve
open Acltk.Page (Listed Refers nameOf)
open Acltk.IosPage (ObjectsOf Settled Kept oid)

variable {T : Type}

/-- **C113, exactly the settled texts.** For the objects of an accepted IOS text: every object with a name that a rule or a group refers to is the one listed under its name,
if and only if the text is settled. -/
theorem C113_exact {g : Guard} {pf : String → Detect.Outcome (Nat × Pf.Parsed T) Unit} {t : String} {items : List IosText.Item}
    (hc : detect g pf t = .config (.ios items)) {objs : Oid → Page.Obj} (B : ObjectsOf objs items) :
    (∀ o s n, Refers objs (tables (T := T) (.ios items)) o → nameOf objs o = some (s, n) → Listed objs (tables (T := T) (.ios items)) s n o) ↔ Settled items := by
  obtain ⟨u, hp⟩ := Accepted.detect_inv hc
  have R := ios_refs hc
  constructor
  · intro h k c n p hl hr
    obtain ⟨i, h1, h2⟩ := IosPage.refersTo_def hr
    have hname : nameOf objs (oid items p) = some (Page.sectOf c, n) := (IosPage.defined_name B R h1 h2).1
    obtain ⟨h3, -, h6, -⟩ := C113_listed hc B
    have hrefers : Refers objs (tables (T := T) (.ios items)) (oid items p) := by
      cases IosPage.has_of B (IosText.parseFile_icmp hp) hr with
      | field hlt hf => exact .field (Or.inl (by rw [h3]; exact List.mem_range.2 hlt)) hf
      | member e hm =>
        obtain ⟨c', n', h8⟩ := IosPage.group_kept B hl e
        have := (h6 c' n' _).2 ⟨k, h8, rfl⟩
        unfold Page.Listed at this
        rw [if_neg (Page.sectOf_ne c').2] at this
        exact .listed this e hm
    have := h _ _ _ hrefers hname
    rw [h6] at this
    obtain ⟨q, h7, h8⟩ := this
    rw [IosPage.oid_inj h8]
    exact h7
  · intro hS o s n hr hn
    obtain ⟨W, -⟩ := ios_wellFormed (T := T) hc B hS
    obtain ⟨h1, h2⟩ := W.listed o s n hr hn
    unfold Page.Listed
    rw [if_neg h1]
    exact h2

end Acltk.Static
