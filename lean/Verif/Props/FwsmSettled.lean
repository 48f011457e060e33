import Verif.Lemmas.FwsmIcmp
import Verif.Props.FwsmPage
/-!
# C108: exactly the settled texts have references that are listed
-/
namespace Acltk.Page
open Acltk Acltk.Resolve Acltk.FwsmText

variable {objs : Oid → Obj} {items : List FwsmText.Item}

/-- A text that defines no name twice is settled. -/
theorem once_settled (h : Once items) : Settled items := by
  intro k c n p _ hr
  have key : (∃ i, items[p]? = some i ∧ defName c i = some n) → Kept items c n p := by
    rintro ⟨i, h1, h2⟩
    refine ⟨⟨i, h1, h2⟩, fun q j hj hd => ?_⟩
    rw [h c n p q i j h1 hj h2 hd]
    split <;> exact Nat.le_refl _
  cases hr with
  | object _ _ hf =>
    obtain ⟨-, ⟨i, v, h1, h2⟩, -⟩ := hf
    exact key ⟨i, h1, by cases i <;> simp [netObjDef] at h2; simp [defName, h2.1]⟩
  | group _ _ hf =>
    obtain ⟨-, ⟨i, v, h1, h2⟩, -⟩ := hf
    exact key ⟨i, h1, by cases i <;> simp [netGroupDef] at h2; simp [defName, h2.1]⟩
  | id _ _ h1 h2 => exact key ⟨_, h1, (idDef_spec h2).2.1⟩
  | service _ _ _ hf =>
    obtain ⟨-, ⟨i, v, h1, h2⟩, -⟩ := hf
    exact key ⟨i, h1, by cases i <;> simp [svcDef] at h2; simp [defName, h2.1]⟩
  | source h1 => exact key ⟨_, h1, rfl⟩

/-- The object of the definition number `p`. -/
def oidOf (items : List FwsmText.Item) (c : Config.Kind) (p : Nat) : Oid := if c = .netObj then objOid items p else p

theorem oidOf_inj {c : Config.Kind} {p q : Nat} (hp : p < items.length) (hq : q < items.length) (h : oidOf items c p = oidOf items c q) : p = q := by
  have key : ∀ r, objOid items r = r ∨ objOid items r = items.length + r := by
    intro r
    unfold objOid
    split
    · exact Or.inr rfl
    · exact Or.inl rfl
  have key : ∀ r, oidOf items c r = r ∨ oidOf items c r = items.length + r := by
    intro r
    unfold oidOf
    split
    · exact key r
    · exact Or.inl rfl
  have nat : ∀ a b N x y : Nat, a < N → b < N → (x = a ∨ x = N + a) → (y = b ∨ y = N + b) → x = y → a = b := by omega
  exact nat p q items.length _ _ hp hq (key p) (key q) h

theorem refersTo_def {k p : Nat} {c : Config.Kind} {n : String} (h : RefersTo items k c n p) : ∃ i, items[p]? = some i ∧ defName c i = some n := by
  cases h with
  | object _ _ hf =>
    obtain ⟨-, ⟨i, v, h1, h2⟩, -⟩ := hf
    exact ⟨i, h1, by cases i <;> simp [netObjDef] at h2; simp [defName, h2.1]⟩
  | group _ _ hf =>
    obtain ⟨-, ⟨i, v, h1, h2⟩, -⟩ := hf
    exact ⟨i, h1, by cases i <;> simp [netGroupDef] at h2; simp [defName, h2.1]⟩
  | id _ _ h1 h2 => exact ⟨_, h1, (idDef_spec h2).2.1⟩
  | service _ _ _ hf =>
    obtain ⟨-, ⟨i, v, h1, h2⟩, -⟩ := hf
    exact ⟨i, h1, by cases i <;> simp [svcDef] at h2; simp [defName, h2.1]⟩
  | source h1 => exact ⟨_, h1, rfl⟩

/-- What an element contains. -/
inductive Has (objs : Oid → Obj) (k : Oid) (o : Oid) : Prop
  | field : Field (info objs) k (.obj o) → Has objs k o
  | member {c n l} : objs k = .group c n l → .obj o ∈ l → Has objs k o

theorem each_get {α : Type} {R : α → El → Prop} {l : List α} {es : List El} (h : Each R l es) {x : α} (hx : x ∈ l) : ∃ e ∈ es, R x e := by
  obtain ⟨j, hj⟩ := List.mem_iff_getElem?.1 hx
  have hlt : j < es.length := by rw [← h.1]; exact (List.getElem?_eq_some_iff.1 hj).1
  exact ⟨es[j], List.getElem_mem hlt, h.2 j _ _ hj (List.getElem?_eq_getElem hlt)⟩

theorem node_get {k : Nat} {l : List (Option NatCmd.Node')} {h : Host} (hm : h ∈ nodeHosts l) : some (.host h) ∈ l := by
  obtain ⟨x, hx, e⟩ := List.mem_filterMap.1 hm
  rcases x with _ | ⟨_ | _⟩ <;> cases e
  exact hx

/-- The objects of the hosts of an element. -/
theorem has_host (B : ObjectsOf objs items) {k : Nat} {i : FwsmText.Item} (hi : items[k]? = some i) {h : Host} (hm : h ∈ hostsOf i) :
    ∃ e, HostAt objs items k h e ∧ ∀ o, e = .obj o → Has objs k o := by
  have hat := B.item k i hi
  cases i with
  | rule r =>
    obtain ⟨p, sh, sp, dh, dp, ic, os, e, h1, h2, h3, h4, h5, h6, h7⟩ := hat
    have hinf : info objs k = .rule ⟨p, protocolName objs p, sh, sp, dp, dh, some r.id, ic, os.filter (isTimeRange objs)⟩ := by simp [info, e]
    simp only [hostsOf, List.mem_cons, List.not_mem_nil, or_false] at hm
    rcases hm with rfl | rfl
    · exact ⟨_, h2, fun o ho => .field (ho ▸ Field.srcHost hinf)⟩
    · exact ⟨_, h4, fun o ho => .field (ho ▸ Field.dstHost hinf)⟩
  | netGroup m hs d =>
    obtain ⟨ms, h1, h2⟩ := hat
    obtain ⟨e, he, hr⟩ := each_get h2 hm
    exact ⟨e, hr, fun o ho => .member h1 (ho ▸ he)⟩
  | nat x =>
    obtain ⟨r, m, e, h2⟩ := hat
    have hinf : info objs k = .nat (some r) (some m) := by simp [info, e]
    have := node_get (k := k) hm
    simp only [List.mem_cons, List.not_mem_nil, or_false] at this
    rcases this with h | h | h | h
    · have h3 := h2.src; rw [← h] at h3; obtain ⟨y, h4, h5⟩ := h3
      exact ⟨y, h5, fun o ho => .field (ho ▸ Field.natSrc hinf (Or.inl rfl) h4)⟩
    · have h3 := h2.dst; rw [← h] at h3; obtain ⟨y, h4, h5⟩ := h3
      exact ⟨y, h5, fun o ho => .field (ho ▸ Field.natDst hinf (Or.inl rfl) h4)⟩
    · have h3 := h2.mappedSrc; rw [← h] at h3; obtain ⟨y, h4, h5⟩ := h3
      exact ⟨y, h5, fun o ho => .field (ho ▸ Field.natSrc hinf (Or.inr rfl) h4)⟩
    · have h3 := h2.mappedDst; rw [← h] at h3; obtain ⟨y, h4, h5⟩ := h3
      exact ⟨y, h5, fun o ho => .field (ho ▸ Field.natDst hinf (Or.inr rfl) h4)⟩
  | netObj n l x d =>
    cases x with
    | none => cases hm
    | some x =>
      obtain ⟨-, r, m, e, h2⟩ := hat
      have hinf : info objs k = .nat (some r) (some m) := by simp [info, e]
      have := node_get (k := k) hm
      simp only [List.mem_cons, List.not_mem_nil, or_false] at this
      rcases this with h | h | h
      · have h3 := h2.dst; rw [← h] at h3; obtain ⟨y, h4, h5⟩ := h3
        exact ⟨y, h5, fun o ho => .field (ho ▸ Field.natDst hinf (Or.inl rfl) h4)⟩
      · have h3 := h2.mappedSrc; rw [← h] at h3; obtain ⟨y, h4, h5⟩ := h3
        exact ⟨y, h5, fun o ho => .field (ho ▸ Field.natSrc hinf (Or.inr rfl) h4)⟩
      · have h3 := h2.mappedDst; rw [← h] at h3; obtain ⟨y, h4, h5⟩ := h3
        exact ⟨y, h5, fun o ho => .field (ho ▸ Field.natDst hinf (Or.inr rfl) h4)⟩
  | _ => cases hm

/-- The objects of the identities of an element. -/
theorem has_id (B : ObjectsOf objs items) (hI : ∀ i ∈ items, ItemIcmp i) {k : Nat} {i : FwsmText.Item} (hi : items[k]? = some i) {c : Config.Kind} {o : Nat}
    (hm : (c, o) ∈ idsOf i) {p : Nat} {j : FwsmText.Item} {n : String} (hj : items[p]? = some j) (hd : idDef c j = some (n, o)) : Has objs k p := by
  have hat := B.item k i hi
  have hid := (idDef_spec hd).1
  have at_ : ∀ {e : El}, IdAt items o e → e = .obj p := fun h => h p j hj hid
  cases i with
  | rule r =>
    have hicmp := hI _ (List.mem_iff_getElem?.2 ⟨k, hi⟩) r rfl
    obtain ⟨pr, sh, sp, dh, dp, ic, os, e, h1, h2, h3, h4, h5, h6, h7⟩ := hat
    have hinf : info objs k = .rule ⟨pr, protocolName objs pr, sh, sp, dp, dh, some r.id, ic, os.filter (isTimeRange objs)⟩ := by simp [info, e]
    have hport : ∀ {v : Option AclText.PortVal} {e : El}, (c, o) ∈ portIds v → PortAt objs items v e → e = .obj p := by
      intro v e hv he
      rcases v with _ | ⟨_ | _ | w | _⟩ <;> simp [portIds] at hv
      obtain ⟨rfl, rfl⟩ := hv
      exact at_ he
    simp only [idsOf, List.mem_append] at hm
    rcases hm with (((hm | hm) | hm) | hm) | hm
    · have : pr = .obj p := by
        generalize r.protocol = v at hm h1
        cases v <;> simp [protoIds] at hm
        all_goals (obtain ⟨rfl, rfl⟩ := hm; exact at_ h1)
      exact .field (this ▸ Field.protocol hinf)
    · exact .field (hport hm h3 ▸ Field.srcPort hinf)
    · exact .field (hport hm h5 ▸ Field.dstPort hinf)
    · generalize hv : r.icmp = v at hm h6 hicmp
      rcases v with _ | ⟨_ | w⟩ <;> simp [icmpIds] at hm
      obtain ⟨rfl, rfl⟩ := hm
      obtain ⟨x, rfl, hx⟩ := h6
      have hx := at_ hx
      subst hx
      have hname : protocolName objs pr = some "icmp" ∨ protocolName objs pr = some "icmp6" := by
        rcases hicmp with h | h | h
        · rw [hv] at h; cases h
        · rw [h] at h1; obtain ⟨q, rfl, -, e⟩ := h1; exact Or.inl (by simp [protocolName, e])
        · rw [h] at h1; obtain ⟨q, rfl, -, e⟩ := h1; exact Or.inr (by simp [protocolName, e])
      exact .field (Field.icmp hinf hname rfl)
    · obtain ⟨q, hq, hqo⟩ := List.mem_flatMap.1 hm
      have hq2 : q.2 = .timeRange o ∧ c = .timeRange := by
        revert hqo
        cases q.2 <;> simp [optIds]
        intro a b; exact ⟨b.symm, a⟩
      obtain ⟨hq2, rfl⟩ := hq2
      have ho : o ∈ rangesOf r := List.mem_filterMap.2 ⟨q, hq, by rw [hq2]⟩
      obtain ⟨x, hx, hx2⟩ := each_get h7 ho
      have hx2 := at_ hx2
      subst hx2
      refine .field (Field.timeRange hinf (List.mem_filter.2 ⟨hx, ?_⟩))
      have : ∃ m, objs p = .timeRange m := by
        have := B.item p j hj
        cases j <;> simp [idDef] at hd
        exact ⟨_, this⟩
      obtain ⟨m, hm⟩ := this
      simp [isTimeRange, hm]
  | portGroup w m pr hs d =>
    obtain ⟨ms, h1, h2⟩ := hat
    obtain ⟨y, hy, hyo⟩ := List.mem_flatMap.1 hm
    obtain ⟨e, he, hr⟩ := each_get h2 hy
    cases y <;> simp at hyo
    obtain ⟨rfl, rfl⟩ := hyo
    exact .member h1 (at_ hr ▸ he)
  | svcGroup w m hs d =>
    obtain ⟨ms, h1, h2⟩ := hat
    obtain ⟨y, hy, hyo⟩ := List.mem_flatMap.1 hm
    obtain ⟨e, he, hr⟩ := each_get h2 hy
    cases y <;> simp at hyo
    all_goals (obtain ⟨rfl, rfl⟩ := hyo; exact .member h1 (at_ hr ▸ he))
  | icmpGroup w m hs d =>
    obtain ⟨ms, h1, h2⟩ := hat
    obtain ⟨y, hy, hyo⟩ := List.mem_flatMap.1 hm
    obtain ⟨e, he, hr⟩ := each_get h2 hy
    cases y <;> simp at hyo
    obtain ⟨rfl, rfl⟩ := hyo
    exact .member h1 (at_ hr ▸ he)
  | protoGroup w m hs d =>
    obtain ⟨ms, h1, h2⟩ := hat
    obtain ⟨y, hy, hyo⟩ := List.mem_flatMap.1 hm
    obtain ⟨e, he, hr⟩ := each_get h2 hy
    cases y <;> simp at hyo
    obtain ⟨rfl, rfl⟩ := hyo
    exact .member h1 (at_ hr ▸ he)
  | _ => cases hm

/-- Every reference of an element is one of its object. -/
theorem has_of (B : ObjectsOf objs items) (hI : ∀ i ∈ items, ItemIcmp i) {k p : Nat} {c : Config.Kind} {n : String} (h : RefersTo items k c n p) :
    Has objs k (oidOf items c p) := by
  cases h with
  | object hi hm hf =>
    obtain ⟨e, h1, h2⟩ := has_host B hi hm
    exact h2 _ (h1 p hf)
  | group hi hm hf =>
    obtain ⟨e, h1, h2⟩ := has_host B hi hm
    exact h2 _ (h1 p hf)
  | id hi hm hj hd =>
    have := has_id B hI hi hm hj hd
    unfold oidOf
    rw [if_neg (idDef_spec hd).2.2]
    exact this
  | @service i v _ _ hi hv hn hf =>
    cases i with
    | nat x =>
      obtain ⟨r, m, e, h2⟩ := B.item k _ hi
      have hinf : info objs k = .nat (some r) (some m) := by simp [info, e]
      simp only [servicesOf, List.mem_append, Option.mem_toList] at hv
      rcases hv with hv | hv
      · have h3 := h2.service
        rw [hv] at h3
        simp only [ServiceAt, hn] at h3
        exact .field (h3 p hf ▸ Field.natService hinf (Or.inl rfl))
      · have h3 := h2.mappedService
        rw [hv] at h3
        simp only [ServiceAt, hn] at h3
        exact .field (h3 p hf ▸ Field.natService hinf (Or.inr rfl))
    | _ => cases hv
  | source hi =>
    obtain ⟨-, r, m, e, h2⟩ := B.item k _ hi
    have hinf : info objs k = .nat (some r) (some m) := by simp [info, e]
    have : oidOf items .netObj k = items.length + k := by simp [oidOf, objOid, hi]
    rw [this]
    exact .field (Field.natSrc hinf (Or.inl rfl) h2.src)

/-- Only rules and NAT entries have fields. -/
theorem field_item (B : ObjectsOf objs items) {k : Nat} {i : FwsmText.Item} (hi : items[k]? = some i) {y : El} (hf : Field (info objs) k y) :
    (∃ r, i = .rule r) ∨ (∃ x, i = .nat x) ∨ ∃ n l x d, i = .netObj n l (some x) d := by
  have hat := B.item k i hi
  have hinf : (∃ r, info objs k = .rule r) ∨ ∃ a b, info objs k = .nat a b := by
    cases hf <;> first | exact Or.inl ⟨_, by assumption⟩ | exact Or.inr ⟨_, _, by assumption⟩
  rcases i with _ | _ | _ | _ | _ | _ | ⟨_, _, _ | _, _⟩ | _ | _ | _ | _ | _ | _ | _ | _ | _ | _ | _
  all_goals first
    | exact Or.inl ⟨_, rfl⟩
    | exact Or.inr (Or.inl ⟨_, rfl⟩)
    | exact Or.inr (Or.inr ⟨_, _, _, _, rfl⟩)
    | (exfalso
       simp only [ItemAt] at hat
       first
         | (obtain ⟨_, e, -⟩ := hat; rcases hinf with ⟨r, h⟩ | ⟨a, b, h⟩ <;> simp [info, e] at h)
         | (rcases hinf with ⟨r, h⟩ | ⟨a, b, h⟩ <;> simp [info, hat] at h))

/-- The element of a group object that the configuration has is kept. -/
theorem group_kept (B : ObjectsOf objs items) {k : Nat} (hl : Live items k) {c : GroupClass} {n : String} {l : List El} (e : objs k = .group c n l) :
    ∃ c n, c ≠ .netObj ∧ Kept items c n k := by
  have hno : ∀ {n l x d}, items[k]? ≠ some (.netObj n l x d) := by
    intro n l x d h
    have := B.item k _ h
    cases x with
    | none => obtain ⟨_, e', -⟩ := this; rw [e] at e'; cases e'
    | some x => obtain ⟨-, _, _, e', -⟩ := this; rw [e] at e'; cases e'
  cases hl with
  | rule h => obtain ⟨_, _, _, _, _, _, _, e', -⟩ := B.item k _ h; rw [e] at e'; cases e'
  | nat h => obtain ⟨_, _, e', -⟩ := B.item k _ h; rw [e] at e'; cases e'
  | objectNat h => exact absurd h hno
  | @kept c n h =>
    refine ⟨c, n, ?_, h⟩
    rintro rfl
    obtain ⟨⟨i, h1, h2⟩, -⟩ := h
    cases i <;> simp [defName] at h2
    exact hno h1

/-- Whatever refers to something is an element of the text. -/
theorem refersTo_elem {k p : Nat} {c : Config.Kind} {n : String} (h : RefersTo items k c n p) : ∃ i, items[k]? = some i := by
  cases h <;> exact ⟨_, by assumption⟩

end Acltk.Page

namespace Acltk.Static
open Acltk Acltk.Lookup Acltk.Detect Acltk.DetectText Acltk.Resolve
open Acltk.Page (ObjectsOf Settled Kept Listed Refers nameOf)

variable {T : Type}

/-- **C108, exactly the settled texts.** For the objects of an accepted FWSM text: every object with a name that a rule, a NAT entry or a group refers to is the one listed under its name,
if and only if the text is settled. -/
theorem C108_exact {g : Guard} {pf : String → Detect.Outcome (Nat × Pf.Parsed T) Unit} {t : String} {items : List FwsmText.Item}
    (hc : detect g pf t = .config (.fwsm items)) {objs : Oid → Page.Obj} (B : ObjectsOf objs items) :
    (∀ o s n, Refers objs (tables (T := T) (.fwsm items)) o → nameOf objs o = some (s, n) → Listed objs (tables (T := T) (.fwsm items)) s n o) ↔ Settled items := by
  obtain ⟨u, hp⟩ := Accepted.detect_inv hc
  constructor
  · intro h k c n p hl hr
    obtain ⟨i, h1, h2⟩ := Page.refersTo_def hr
    have hname : nameOf objs (Page.oidOf items c p) = some (Page.sectOf c, n) :=
      Page.defined_name B h1 (by rw [Page.linked_defines h1, h2]; rfl)
    obtain ⟨h3, h4, h5, -, h6⟩ := C108_listed hc B
    have hrefers : Refers objs (tables (T := T) (.fwsm items)) (Page.oidOf items c p) := by
      obtain ⟨w, hw⟩ := Page.refersTo_elem hr
      cases Page.has_of B (FwsmText.parseFile_icmp hp) hr with
      | field hf =>
        refine .field ?_ hf
        rcases Page.field_item B hw hf with ⟨r, rfl⟩ | ⟨x, rfl⟩ | ⟨n, l, x, d, rfl⟩
        · exact Or.inl ((h4 _).2 ⟨_, hw⟩)
        · exact Or.inr ((h5 _).2 (Or.inl ⟨_, hw⟩))
        · exact Or.inr ((h5 _).2 (Or.inr ⟨_, _, _, _, hw⟩))
      | member e hm =>
        obtain ⟨c', n', h7, h8⟩ := Page.group_kept B hl e
        have := (h6 c' n' k).2 ⟨k, h8, by rw [if_neg h7]⟩
        unfold Page.Listed at this
        rw [if_neg (Page.sectOf_ne c').2] at this
        exact .listed this e hm
    have := h _ _ _ hrefers hname
    rw [h6] at this
    obtain ⟨q, h7, h8⟩ := this
    obtain ⟨⟨j, h9, -⟩, -⟩ := id h7
    have : p = q := Page.oidOf_inj (Page.lt_of_get h1) (Page.lt_of_get h9) h8
    rw [this]
    exact h7
  · intro hS o s n hr hn
    obtain ⟨W, -⟩ := fwsm_wellFormed (T := T) hc B hS
    obtain ⟨h1, h2⟩ := W.listed o s n hr hn
    unfold Page.Listed
    rw [if_neg h1]
    exact h2

end Acltk.Static
