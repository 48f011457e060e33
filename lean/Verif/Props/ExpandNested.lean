import Verif.Props.PageExpandKeeps
import Verif.Props.IosPage
import Verif.Props.PfPage
/-!
# C114: the groups of an accepted text are not nested in themselves
-/
namespace Acltk.Page
open Acltk Acltk.Resolve Acltk.FwsmText

section
variable {objs : Oid → Obj} {items : List FwsmText.Item}

theorem part_noGroup (B : ObjectsOf objs items) {e : El} {w : Obj → Prop} (h : Part items objs e w) (hw : ∀ c n l, ¬ w (.group c n l)) :
    ∀ q, e = .obj q → ∀ c n l, objs q ≠ .group c n l := by
  obtain ⟨q, rfl, -, hq⟩ := h
  intro q' e c n l h
  cases e
  rw [h] at hq
  exact hw _ _ _ hq

theorem id_lt {k : Nat} {c : Config.Kind} {o : Nat} {e : El} (hf : ∃ n, inForce c (items.take k) n = some o) (he : IdAt items o e) : ∃ p, p < k ∧ e = .obj p := by
  obtain ⟨n, hf⟩ := hf
  cases c with
  | svcObj => obtain ⟨p, i, h0, h1, h2⟩ := firstAt hf; exact ⟨p, h0.1, he p i h1 (idDef_spec h2).1⟩
  | _ => obtain ⟨p, i, h0, h1, h2⟩ := lastAt hf; exact ⟨p, h0.1, he p i h1 (idDef_spec h2).1⟩

theorem nested (B : ObjectsOf objs items) (R : Refs items) : Nested objs id := by
  intro o c n l h q m l' hx hq
  by_cases hlt : o < items.length
  · have hi : items[o]? = some items[o] := List.getElem?_eq_getElem hlt
    have hat := B.item o _ hi
    have hids := R.ids o _ hi
    have hhosts := R.hosts o _ hi
    generalize items[o] = i at hi hat hids hhosts
    have idc : ∀ (k : Config.Kind) (w : Nat), (k, w) ∈ idsOf i → IdAt items w (.obj q) → id q < id o := by
      intro k w h1 h2
      obtain ⟨p, h3, h4⟩ := id_lt (hids _ h1) h2
      cases h4
      exact h3
    have part : ∀ {w : Obj → Prop}, Part items objs (.obj q) w → (∀ c n l, ¬ w (.group c n l)) → id q < id o :=
      fun h1 h2 => absurd hq (part_noGroup B h1 h2 q rfl _ _ _)
    cases i with
    | netGroup m hs d =>
      obtain ⟨ms, h1, h2⟩ := hat
      rw [h] at h1
      cases h1
      obtain ⟨y, hy, hr⟩ := each_mem h2 hx
      have hf := hhosts y hy
      cases y with
      | obj nm as =>
        obtain ⟨p, i, h3, h4, h5⟩ := firstAt hf
        have e := hr p h3
        cases e
        have hat := B.item p _ h4
        exfalso
        cases i with
        | netObj a b z d =>
          cases z with
          | none =>
            obtain ⟨_, e, -⟩ := hat
            simp only [objOid, h4] at hq
            rw [hq] at e
            cases e
          | some z =>
            obtain ⟨⟨_, e, -⟩, -⟩ := hat
            simp only [objOid, h4] at hq
            rw [hq] at e
            cases e
        | _ => simp [netObjDef] at h5
      | group nm as =>
        obtain ⟨p, i, h3, h4, h5⟩ := lastAt hf
        have e := hr p h3
        cases e
        exact h3.1
      | _ => simp only [HostAt] at hr; exact part hr (by simp)
    | portGroup w m pr hs d =>
      obtain ⟨ms, h1, h2⟩ := hat
      rw [h] at h1
      cases h1
      obtain ⟨y, hy, hr⟩ := each_mem h2 hx
      cases y with
      | group v => exact idc .portGroup v (List.mem_flatMap.2 ⟨_, hy, by simp⟩) hr
      | _ => simp only [PortMemberAt] at hr; exact part hr (by simp)
    | svcGroup w m hs d =>
      obtain ⟨ms, h1, h2⟩ := hat
      rw [h] at h1
      cases h1
      obtain ⟨y, hy, hr⟩ := each_mem h2 hx
      cases y with
      | group v => exact idc .svcGroup v (List.mem_flatMap.2 ⟨_, hy, by simp⟩) hr
      | obj v => exact idc .svcObj v (List.mem_flatMap.2 ⟨_, hy, by simp⟩) hr
      | svc _ => simp only [SvcMemberAt] at hr; exact part hr (by simp)
    | icmpGroup w m hs d =>
      obtain ⟨ms, h1, h2⟩ := hat
      rw [h] at h1
      cases h1
      obtain ⟨y, hy, hr⟩ := each_mem h2 hx
      cases y with
      | group v => exact idc .icmpGroup v (List.mem_flatMap.2 ⟨_, hy, by simp⟩) hr
      | icmp _ => simp only [IcmpMemberAt] at hr; exact part hr (by simp)
    | protoGroup w m hs d =>
      obtain ⟨ms, h1, h2⟩ := hat
      rw [h] at h1
      cases h1
      obtain ⟨y, hy, hr⟩ := each_mem h2 hx
      cases y with
      | group v => exact idc .protoGroup v (List.mem_flatMap.2 ⟨_, hy, by simp⟩) hr
      | protocol _ => simp only [ProtoMemberAt] at hr; exact part hr (by simp)
    | netObj m hs z d =>
      cases z with
      | none => obtain ⟨as, h1, -⟩ := hat; rw [h] at h1; cases h1
      | some z => obtain ⟨-, _, _, h1, -⟩ := hat; rw [h] at h1; cases h1
    | nat => obtain ⟨_, _, h1, -⟩ := hat; rw [h] at h1; cases h1
    | rule => obtain ⟨_, _, _, _, _, _, _, h1, -⟩ := hat; rw [h] at h1; cases h1
    | _ => have h1 : objs o = _ := hat; rw [h] at h1; cases h1
  · rcases beyond B (Nat.le_of_not_lt hlt) with hp | ⟨_, _, _, _, _, _, -, -, h1, -⟩
    · exact absurd h ((isPart_name hp).2.1 c n l)
    · rw [h] at h1; cases h1

theorem plain (B : ObjectsOf objs items) : PlainAddresses objs := by
  intro o n l e x hx
  have key : ∀ {hs : List Host}, Addresses objs items hs l → ∃ q, x = .obj q ∧ (objs q = .address none ∨ objs q = .other) := by
    intro hs ha
    obtain ⟨y, -, q, rfl, -, hq⟩ := each_mem ha hx
    exact ⟨q, rfl, hq⟩
  by_cases hlt : o < items.length
  · have hi : items[o]? = some items[o] := List.getElem?_eq_getElem hlt
    have hat := B.item o _ hi
    generalize items[o] = i at hi hat
    cases i with
    | netObj m hs z d =>
      cases z with
      | none => obtain ⟨as, h1, h2⟩ := hat; rw [e] at h1; cases h1; exact key h2
      | some z => obtain ⟨-, _, _, h1, -⟩ := hat; rw [e] at h1; cases h1
    | nat => obtain ⟨_, _, h1, -⟩ := hat; rw [e] at h1; cases h1
    | rule => obtain ⟨_, _, _, _, _, _, _, h1, -⟩ := hat; rw [e] at h1; cases h1
    | netGroup | portGroup | svcGroup | icmpGroup | protoGroup => obtain ⟨_, h1, -⟩ := hat; rw [e] at h1; cases h1
    | _ => have h1 : objs o = _ := hat; rw [e] at h1; cases h1
  · rcases beyond B (Nat.le_of_not_lt hlt) with hp | ⟨_, _, _, _, _, _, -, -, h1, h2⟩
    · exact absurd e ((isPart_name hp).2.2.1 n l)
    · rw [e] at h1; cases h1; exact key h2

end

end Acltk.Page

namespace Acltk.IosPage
open Acltk Acltk.Resolve
open Acltk.Page hiding Item
open Acltk.FwsmText (netGroupDef idDef identOf HostInForce inForce lastOf protoIds portIds icmpIds)
open Acltk.IosText (Item IRule rulesOf defs hostsOf idsOf itemRules ruleIds Base)

section
variable {objs : Oid → Obj} {items : List Item}

theorem part_noGroup {e : El} {w : Obj → Prop} (h : Part objs items e w) (hw : ∀ c n l, ¬ w (.group c n l)) :
    ∀ q, e = .obj q → ∀ c n l, objs q ≠ .group c n l := by
  obtain ⟨q, rfl, -, hq⟩ := h
  intro q' e c n l h
  cases e
  rw [h] at hq
  exact hw _ _ _ hq

theorem oid_lt {p k : Nat} (h : p < k) : oid items p < oid items k := Nat.add_lt_add_left h _

theorem nested (B : ObjectsOf objs items) (R : Refs items) : Nested objs id := by
  intro o c n l h q m l' hx hq
  rcases obj_cases B o with ⟨-, _, _, _, _, _, _, _, e⟩ | ⟨p, i, rfl, hi, hat⟩ | ⟨-, e | e | ⟨m, e⟩ | ⟨m, e⟩⟩ <;> first | (rw [h] at e; cases e; done) | skip
  have part : ∀ {w : Obj → Prop}, Part objs items (.obj q) w → (∀ c n l, ¬ w (.group c n l)) → id q < id (oid items p) :=
    fun h1 h2 => absurd hq (part_noGroup h1 h2 q rfl _ _ _)
  have idc : ∀ (c : Config.Kind) (o : Nat), (c, o) ∈ idsOf i → IdAt items o (.obj q) → id q < id (oid items p) := by
    intro c o hm he
    obtain ⟨n, hf⟩ := R.ids p i hi _ hm
    have key : ∃ (p' : Nat) (i : FwsmText.Item), p' < p ∧ (defs items)[p']? = some i ∧ idDef c i = some (n, o) := by
      cases c with
      | svcObj => exact absurd rfl ((R.only p i hi).2 _ hm).1
      | _ => obtain ⟨p, i, h0, h1, h2⟩ := lastAt hf; exact ⟨p, i, h0.1, h1, h2⟩
    obtain ⟨p', i', h0, h1, h2⟩ := key
    have := he p' i' h1 (Page.idDef_spec h2).1
    cases this
    exact oid_lt h0
  cases i with
  | base j =>
    cases j with
    | netGroup m hs d =>
      obtain ⟨ms, h1, h2⟩ := hat
      rw [h] at h1
      cases h1
      obtain ⟨y, hy, hr⟩ := each_mem h2 hx
      have hm : y ∈ hostsOf (.base (.netGroup m hs d)) := by simp [hostsOf, itemRules, hy]
      have hf := R.hosts p _ hi _ hm
      cases y with
      | group nm as =>
        obtain ⟨p', i, h3, h4, h5⟩ := lastAt hf
        have e := hr p' h3
        cases e
        exact oid_lt h3.1
      | obj nm as => exact absurd rfl ((R.only p _ hi).1 _ hm nm as)
      | _ => simp only [HostAt] at hr; exact part hr (by simp)
    | portGroup w m pr hs d =>
      obtain ⟨ms, h1, h2⟩ := hat
      rw [h] at h1
      cases h1
      obtain ⟨y, hy, hr⟩ := each_mem h2 hx
      cases y with
      | group v => exact idc .portGroup v (List.mem_append_right _ (List.mem_flatMap.2 ⟨_, hy, by simp⟩)) hr
      | _ => simp only [PortMemberAt] at hr; exact part hr (by simp)
    | svcGroup w m hs d =>
      obtain ⟨ms, h1, h2⟩ := hat
      rw [h] at h1
      cases h1
      obtain ⟨y, hy, hr⟩ := each_mem h2 hx
      cases y with
      | group v => exact idc .svcGroup v (List.mem_append_right _ (List.mem_flatMap.2 ⟨_, hy, by simp⟩)) hr
      | obj v => exact idc .svcObj v (List.mem_append_right _ (List.mem_flatMap.2 ⟨_, hy, by simp⟩)) hr
      | svc _ => simp only [SvcMemberAt] at hr; exact part hr (by simp)
    | icmpGroup w m hs d =>
      obtain ⟨ms, h1, h2⟩ := hat
      rw [h] at h1
      cases h1
      obtain ⟨y, hy, hr⟩ := each_mem h2 hx
      cases y with
      | group v => exact idc .icmpGroup v (List.mem_append_right _ (List.mem_flatMap.2 ⟨_, hy, by simp⟩)) hr
      | icmp _ => simp only [IcmpMemberAt] at hr; exact part hr (by simp)
    | protoGroup w m hs d =>
      obtain ⟨ms, h1, h2⟩ := hat
      rw [h] at h1
      cases h1
      obtain ⟨y, hy, hr⟩ := each_mem h2 hx
      cases y with
      | group v => exact idc .protoGroup v (List.mem_append_right _ (List.mem_flatMap.2 ⟨_, hy, by simp⟩)) hr
      | protocol _ => simp only [ProtoMemberAt] at hr; exact part hr (by simp)
    | _ => have h1 : objs (oid items p) = _ := hat; rw [h] at h1; cases h1
  | _ => have h1 : objs (oid items p) = _ := hat; rw [h] at h1; cases h1

theorem noObject (B : ObjectsOf objs items) (o : Oid) : (∀ n l, objs o ≠ .netObject n l) ∧ ∀ n, objs o ≠ .svcObject n := by
  rcases obj_cases B o with ⟨-, _, _, _, _, _, _, _, e⟩ | ⟨p, i, rfl, hi, hat⟩ | ⟨-, e | e | ⟨m, e⟩ | ⟨m, e⟩⟩ <;> first | (rw [e]; simp; done) | skip
  cases i with
  | base j =>
    cases j with
    | netGroup | portGroup | svcGroup | icmpGroup | protoGroup => obtain ⟨_, h1, -⟩ := hat; rw [h1]; simp
    | _ => have h1 : objs (oid items p) = _ := hat; rw [h1]; simp
  | _ => have h1 : objs (oid items p) = _ := hat; rw [h1]; simp

end

end Acltk.IosPage

namespace Acltk.PfPage
open Acltk Acltk.Resolve Acltk.Pf
open Acltk.Page (Obj Nested)

variable {T : Type} {objs : Oid → Obj} {p : Pf.Parsed T}

theorem nested (B : ObjectsOf objs p) : Nested objs id := by
  intro o c n l h q m l' hx hq
  rcases obj_cases B o with ⟨r, hr, _, _, _, _, _, _, e, -⟩ | ⟨j, g, rfl, hg, hat⟩ | ⟨j, i, -, -, e⟩ | ⟨-, e | e | ⟨m, e⟩ | ⟨m, e⟩⟩ <;>
    first | (rw [h] at e; cases e; done) | skip
  have key : ∀ {α : Type} {as : List α}, MembersAt objs p as l → False := by
    intro α as ha
    obtain ⟨q', e, -, hw⟩ := ha.2 _ hx
    cases e
    rcases hw with hw | hw <;> rw [hq] at hw <;> cases hw
  cases g with
  | net a b s => obtain ⟨es, h1, h2⟩ := hat; rw [h] at h1; cases h1; exact (key h2).elim
  | port a b s => obtain ⟨es, h1, h2⟩ := hat; rw [h] at h1; cases h1; exact (key h2).elim

theorem noObject (B : ObjectsOf objs p) (o : Oid) : (∀ n l, objs o ≠ .netObject n l) ∧ ∀ n, objs o ≠ .svcObject n := by
  rcases obj_cases B o with ⟨r, hr, _, _, _, _, _, _, e, -⟩ | ⟨j, g, rfl, hg, hat⟩ | ⟨j, i, -, -, e⟩ | ⟨-, e | e | ⟨m, e⟩ | ⟨m, e⟩⟩ <;>
    first | (rw [e]; simp; done) | skip
  cases g with
  | net a b s => obtain ⟨es, h1, h2⟩ := hat; rw [h1]; simp
  | port a b s => obtain ⟨es, h1, h2⟩ := hat; rw [h1]; simp

end Acltk.PfPage
