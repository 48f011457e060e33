import Verif.Spec.HeapSpec
import Verif.Props.FwsmRefs
import Verif.Props.Static
/-!
# Lemmas for C108: the objects of an FWSM text
-/
namespace Acltk.Page
open Acltk Acltk.Resolve Acltk.FwsmText

/-- The elements as `ACLConfig.__init__` sees them. -/
abbrev linked (items : List FwsmText.Item) : List Config.Item := (CafFilter.number 0 items).map (Static.place items.length)

theorem number_get (items : List FwsmText.Item) : ∀ (a k : Nat), (CafFilter.number a items)[k]? = items[k]?.map (CafFilter.link (a + k)) := by
  induction items with
  | nil => intro a k; simp [CafFilter.number]
  | cons i is ih =>
    intro a k
    cases k with
    | zero => simp [CafFilter.number]
    | succ k =>
      simp only [CafFilter.number, List.getElem?_cons_succ, ih (a + 1) k]
      rw [show a + 1 + k = a + (k + 1) from Nat.succ_add_eq_add_succ a k]

theorem linked_get (items : List FwsmText.Item) (k : Nat) :
    (linked items)[k]? = items[k]?.map fun i => Static.place items.length (CafFilter.link k i) := by
  unfold linked
  rw [List.getElem?_map, number_get, Nat.zero_add, Option.map_map]
  rfl

theorem mem_linked {items : List FwsmText.Item} {c : Config.Item} :
    c ∈ linked items ↔ ∃ (k : Nat) (i : FwsmText.Item), items[k]? = some i ∧ c = Static.place items.length (CafFilter.link k i) := by
  rw [List.mem_iff_getElem?]
  constructor
  · rintro ⟨k, h⟩
    rw [linked_get, Option.map_eq_some_iff] at h
    obtain ⟨i, h1, h2⟩ := h
    exact ⟨k, i, h1, h2.symm⟩
  · rintro ⟨k, i, h1, h2⟩
    exact ⟨k, by rw [linked_get, h1, h2]; rfl⟩

theorem lt_of_get {items : List FwsmText.Item} {k : Nat} {i : FwsmText.Item} (h : items[k]? = some i) : k < items.length :=
  (List.getElem?_eq_some_iff.1 h).1

/-- What an element defines. -/
theorem linked_defines {items : List FwsmText.Item} {k : Nat} {i : FwsmText.Item} (h : items[k]? = some i) (c : Config.Kind) :
    Config.definesOf c (Static.place items.length (CafFilter.link k i)) =
      (defName c i).map fun n => (n, if c = .netObj then objOid items k else k) := by
  rcases i with _ | _ | _ | _ | _ | _ | ⟨_, _, _ | _, _⟩ | _ | _ | _ | _ | _ | _ | _ | _ | _ | _ | _ <;> cases c <;>
    simp [CafFilter.link, Static.place, Config.definesOf, defName, objOid, h]

/-- A reference is a definition of the text, or an object without a name of its own. -/
def Ok (items : List FwsmText.Item) (k : Nat) (o : Oid) : Prop :=
  2 * items.length ≤ o ∨ ∃ (p : Nat) (i : FwsmText.Item) (c : Config.Kind) (n : String), items[p]? = some i ∧
    Config.definesOf c (Static.place items.length (CafFilter.link p i)) = some (n, o) ∧ RefersTo items k c n p

theorem part_ok {items : List FwsmText.Item} {objs : Oid → Obj} {k : Nat} {e : El} {w : Obj → Prop} (h : Part items objs e w) : ∃ o, e = .obj o ∧ Ok items k o := by
  obtain ⟨q, h1, h2, -⟩ := h
  exact ⟨q, h1, Or.inl h2⟩

theorem find_first {α : Type} {f : FwsmText.Item → Option (String × α)} {n : String} {v : α} : ∀ {l : List FwsmText.Item},
    firstOf f l n = some v → ∃ (p : Nat) (i : FwsmText.Item), l[p]? = some i ∧ f i = some (n, v) ∧ ∀ (q : Nat) j w, q < p → l[q]? = some j → f j ≠ some (n, w) := by
  intro l
  induction l with
  | nil => intro h; simp [firstOf] at h
  | cons i is ih =>
    intro h
    by_cases hc : ∃ w, f i = some (n, w)
    · obtain ⟨w, hw⟩ := hc
      have : w = v := by simpa [firstOf, hw] using h
      subst this
      exact ⟨0, i, rfl, hw, by intro q j w hq; omega⟩
    · have h' : firstOf f is n = some v := by
        unfold firstOf at h ⊢
        rw [List.filterMap_cons] at h
        cases hf : f i with
        | none => simpa [hf] using h
        | some x =>
          obtain ⟨m, w⟩ := x
          have hm : m ≠ n := by rintro rfl; exact hc ⟨w, hf⟩
          simpa [hf, hm] using h
      obtain ⟨p, j, h1, h2, h3⟩ := ih h'
      refine ⟨p + 1, j, by simpa using h1, h2, ?_⟩
      intro q j' w hq hj
      cases q with
      | zero =>
        simp only [List.getElem?_cons_zero, Option.some.injEq] at hj
        subst hj
        exact fun e => hc ⟨w, e⟩
      | succ q => exact h3 q j' w (by omega) (by simpa using hj)

theorem firstAt {α : Type} {f : FwsmText.Item → Option (String × α)} {items : List FwsmText.Item} {k : Nat} {n : String} {v : α}
    (h : firstOf f (items.take k) n = some v) : ∃ (p : Nat) (i : FwsmText.Item), FirstAt f items k n p ∧ items[p]? = some i ∧ f i = some (n, v) := by
  obtain ⟨p, i, h1, h2, h3⟩ := find_first h
  have hp : p < k := by
    have := lt_of_get h1
    rw [List.length_take] at this
    omega
  rw [List.getElem?_take_of_lt hp] at h1
  refine ⟨p, i, ⟨hp, ⟨i, v, h1, h2⟩, ?_⟩, h1, h2⟩
  intro q j w hq hj
  exact h3 q j w hq (by rw [List.getElem?_take_of_lt (by omega)]; exact hj)

theorem lastAt {α : Type} {f : FwsmText.Item → Option (String × α)} {items : List FwsmText.Item} {k : Nat} {n : String} {v : α}
    (h : lastOf f (items.take k) n = some v) : ∃ (p : Nat) (i : FwsmText.Item), LastAt f items k n p ∧ items[p]? = some i ∧ f i = some (n, v) := by
  obtain ⟨p, i, h1, h2, h3⟩ := find_first h
  have hp := lt_of_get h1
  rw [List.length_reverse] at hp
  rw [List.getElem?_reverse hp] at h1
  have hl : (items.take k).length ≤ k := by rw [List.length_take]; omega
  have hlt : (items.take k).length - 1 - p < k := by omega
  rw [List.getElem?_take_of_lt hlt] at h1
  refine ⟨(items.take k).length - 1 - p, i, ⟨hlt, ⟨i, v, h1, h2⟩, ?_⟩, h1, h2⟩
  intro q j w hq hk hj
  have hql : q < (items.take k).length := by
    have := lt_of_get hj
    rw [List.length_take]
    omega
  refine h3 ((items.take k).length - 1 - q) j w (by omega) ?_
  rw [List.getElem?_reverse (by omega), show (items.take k).length - 1 - ((items.take k).length - 1 - q) = q by omega, List.getElem?_take_of_lt hk]
  exact hj

theorem host_ok {objs : Oid → Obj} {items : List FwsmText.Item} {k : Nat} {x : FwsmText.Item} {h : Host} {e : El}
    (hx : items[k]? = some x) (hm : h ∈ hostsOf x) (hf : HostInForce (items.take k) h)
    (he : HostAt objs items k h e) : ∃ o, e = .obj o ∧ Ok items k o := by
  cases h with
  | obj n l =>
    obtain ⟨p, i, h1, h2, h3⟩ := firstAt hf
    refine ⟨_, he p h1, Or.inr ⟨p, i, .netObj, n, h2, ?_, .object hx hm h1⟩⟩
    rw [linked_defines h2]
    cases i <;> simp [netObjDef] at h3
    simp [defName, h3.1]
  | group n l =>
    obtain ⟨p, i, h1, h2, h3⟩ := lastAt hf
    refine ⟨_, he p h1, Or.inr ⟨p, i, .netGroup, n, h2, ?_, .group hx hm h1⟩⟩
    rw [linked_defines h2]
    cases i <;> simp [netGroupDef] at h3
    simp [defName, h3.1]
  | _ => simp only [HostAt] at he; exact part_ok he

theorem idDef_spec {c : Config.Kind} {i : FwsmText.Item} {n : String} {o : Nat} (h : idDef c i = some (n, o)) :
    identOf i = some o ∧ defName c i = some n ∧ c ≠ .netObj := by
  cases i <;> cases c <;> simp [idDef] at h <;> simp [identOf, defName, h]

theorem id_ok {items : List FwsmText.Item} {k : Nat} {x : FwsmText.Item} {c : Config.Kind} {o : Nat} {e : El} (hx : items[k]? = some x) (hm : (c, o) ∈ idsOf x)
    (hf : ∃ n, inForce c (items.take k) n = some o)
    (he : IdAt items o e) : ∃ (p : Nat) (i : FwsmText.Item) (n : String), e = .obj p ∧ items[p]? = some i ∧ defName c i = some n ∧ c ≠ .netObj ∧ Ok items k p := by
  obtain ⟨n, hf⟩ := hf
  have key : ∃ (p : Nat) (i : FwsmText.Item), items[p]? = some i ∧ idDef c i = some (n, o) := by
    cases c with
    | svcObj => obtain ⟨p, i, -, h1, h2⟩ := firstAt hf; exact ⟨p, i, h1, h2⟩
    | _ => obtain ⟨p, i, -, h1, h2⟩ := lastAt hf; exact ⟨p, i, h1, h2⟩
  obtain ⟨p, i, h1, h2⟩ := key
  obtain ⟨h3, h4, h5⟩ := idDef_spec h2
  refine ⟨p, i, n, he p i h1 h3, h1, h4, h5, Or.inr ⟨p, i, c, n, h1, ?_, .id hx hm h1 h2⟩⟩
  rw [linked_defines h1, h4, Option.map_some, if_neg h5]

/-- An element of the selection that is an object is a reference. -/
def OkEl (items : List FwsmText.Item) (k : Nat) (e : El) : Prop := ∀ o, e = .obj o → Ok items k o

theorem okEl_of {items : List FwsmText.Item} {k : Nat} {e : El} (h : ∃ o, e = .obj o ∧ Ok items k o) : OkEl items k e := by
  obtain ⟨o, h1, h2⟩ := h
  intro q hq
  rw [h1] at hq
  cases hq
  exact h2

theorem okEl_id {items : List FwsmText.Item} {k : Nat} {x : FwsmText.Item} {c : Config.Kind} {o : Nat} {e : El} (hx : items[k]? = some x) (hm : (c, o) ∈ idsOf x)
    (hf : ∃ n, inForce c (items.take k) n = some o) (he : IdAt items o e) : OkEl items k e := by
  obtain ⟨p, i, n, h1, -, -, -, h2⟩ := id_ok hx hm hf he
  exact okEl_of ⟨p, h1, h2⟩

theorem each_mem {α : Type} {R : α → El → Prop} {l : List α} {es : List El} (h : Each R l es) {e : El} (he : e ∈ es) : ∃ x ∈ l, R x e := by
  obtain ⟨j, hj⟩ := List.mem_iff_getElem?.1 he
  have hlt : j < l.length := by rw [h.1]; exact (List.getElem?_eq_some_iff.1 hj).1
  exact ⟨l[j], List.getElem_mem hlt, h.2 j _ e (List.getElem?_eq_getElem hlt) hj⟩

/-- The references of the elements of an accepted text. -/
structure Refs (items : List FwsmText.Item) : Prop where
  hosts : ∀ (k : Nat) i, items[k]? = some i → ∀ x ∈ hostsOf i, HostInForce (items.take k) x
  ids : ∀ (k : Nat) i, items[k]? = some i → ∀ p ∈ idsOf i, ∃ n, inForce p.1 (items.take k) n = some p.2
  services : ∀ (k : Nat) i, items[k]? = some i → ∀ v ∈ servicesOf i, ∃ n w, firstOf svcDef (items.take k) n = some w ∧ v = natService n w
  source : ∀ (k : Nat) n l x d, items[k]? = some (.netObj n l (some x) d) → x.real.src = some (.host (.obj n l))

theorem refs_of {g : Lookup.Guard} {t r : List Char} {items : List FwsmText.Item} (h : parseFile g t = .ok items r) : Refs items where
  hosts _ _ hi := (C107_references h hi).1
  ids _ _ hi := (C107_references h hi).2.1
  services _ _ hi := (C107_references h hi).2.2.1
  source _ n l x d hi := (C107_references h hi).2.2.2 n l x d rfl

section
variable {objs : Oid → Obj} {items : List FwsmText.Item} (B : ObjectsOf objs items) (R : Refs items)
include B

/-- Where the objects with a class of their own are. -/
theorem beyond {o : Oid} (h : items.length ≤ o) : IsPart objs items o ∨ ∃ (k : Nat) (n : String) (l : List Host) (x : NatCmd.Nat') (d : Option (List Char)) (as : List El), items[k]? = some (.netObj n l (some x) d) ∧ o = items.length + k ∧
    objs o = .netObject n as ∧ Addresses objs items l as := by
  by_cases hc : ∃ (k : Nat) (n : String) (l : List Host) (x : NatCmd.Nat') (d : Option (List Char)), items[k]? = some (.netObj n l (some x) d) ∧ o = items.length + k
  · obtain ⟨k, n, l, x, d, h1, rfl⟩ := hc
    obtain ⟨⟨as, h2, h3⟩, -⟩ := B.item k _ h1
    exact Or.inr ⟨k, n, l, x, d, as, h1, rfl, h2, h3⟩
  · exact Or.inl (B.parts o h fun k n l x d h1 h2 => hc ⟨k, n, l, x, d, h1, h2⟩)

theorem part_of {o : Oid} (h : 2 * items.length ≤ o) : IsPart objs items o := by
  refine B.parts o (by omega) ?_
  intro k n l x d h1 h2
  have := lt_of_get h1
  rw [h2] at h
  omega

omit B in
theorem isPart_name {o : Oid} (h : IsPart objs items o) : nameOf objs o = none ∧ (∀ c n l, objs o ≠ .group c n l) ∧ (∀ n l, objs o ≠ .netObject n l) ∧
    (∀ a b c d e f g h, objs o ≠ .rule a b c d e f g h) ∧ (∀ r m, objs o ≠ .nat r m) := by
  rcases h with h | ⟨n, h⟩ | ⟨n, h⟩ | ⟨t, h, -⟩ <;> simp [nameOf, h]

/-- A definition is an object of its section, with its name. -/
theorem defined_name {c : Config.Kind} {p : Nat} {i : FwsmText.Item} {n : String} {o : Oid} (h : items[p]? = some i)
    (hd : Config.definesOf c (Static.place items.length (CafFilter.link p i)) = some (n, o)) : nameOf objs o = some (sectOf c, n) := by
  rw [linked_defines h, Option.map_eq_some_iff] at hd
  obtain ⟨n', hn, e⟩ := hd
  cases e
  have hi := B.item p i h
  cases c with
  | netObj =>
    simp only [if_true]
    cases i <;> simp [defName] at hn
    subst hn
    rename_i m l x d
    cases x with
    | none =>
      have : objOid items p = p := by unfold objOid; rw [h]
      rw [this]
      obtain ⟨as, h1, -⟩ := hi
      simp [nameOf, h1, sectOf]
    | some x =>
      have : objOid items p = items.length + p := by unfold objOid; rw [h]
      rw [this]
      obtain ⟨⟨as, h1, -⟩, -⟩ := hi
      simp [nameOf, h1, sectOf]
  | _ =>
    simp only [reduceCtorEq, if_false]
    cases i <;> simp [defName] at hn <;> subst hn <;>
      first | (obtain ⟨ms, h1, -⟩ := hi; simp [nameOf, h1, sectOf]; done) | (have h1 : objs p = _ := hi; simp [nameOf, h1, sectOf])

include R

omit B in
theorem node_ok {k : Nat} {i : FwsmText.Item} (hi : items[k]? = some i) {l : List (Option NatCmd.Node')} (hl : ∀ h ∈ nodeHosts l, h ∈ hostsOf i)
    {v : Option NatCmd.Node'} (hv : v ∈ l) {e : Option El} (he : NodeAt objs items k v e) {x : El} (hx : e = some x) : OkEl items k x := by
  rcases v with _ | ⟨h | _⟩
  · rw [show e = none from he] at hx; cases hx
  · obtain ⟨y, h1, h2⟩ := he
    rw [h1] at hx
    cases hx
    have hm := hl h (List.mem_filterMap.2 ⟨_, hv, rfl⟩)
    exact okEl_of (host_ok hi hm (R.hosts k i hi h hm) h2)
  · rw [show e = some (.str "interface") from he] at hx
    cases hx
    intro o ho
    cases ho

omit B in
theorem service_ok {k : Nat} {i : FwsmText.Item} (hi : items[k]? = some i) {v : Option NatCmd.Svc} (hv : ∀ s, v = some s → s ∈ servicesOf i) {e : El}
    (he : ServiceAt objs items k v e) : OkEl items k e := by
  cases v with
  | none => rw [show e = .none from he]; intro o ho; cases ho
  | some s =>
    obtain ⟨n, w, h1, rfl⟩ := R.services k i hi s (hv s rfl)
    obtain ⟨p, j, h2, h3, h4⟩ := firstAt h1
    have : e = .obj p := he p h2
    refine okEl_of ⟨p, this, Or.inr ⟨p, j, .svcObj, n, h3, ?_, .service hi (hv _ rfl) rfl h2⟩⟩
    rw [linked_defines h3]
    cases j <;> simp [svcDef] at h4
    simp [defName, h4.1]

/-- The fields of rules and NAT entries. -/
theorem field_ok {k : Nat} (hk : k < items.length) {y : El} (hy : Field (info objs) k y) : OkEl items k y := by
  have hi : items[k]? = some items[k] := List.getElem?_eq_getElem hk
  have hat := B.item k _ hi
  generalize hw : items[k] = i at hi hat
  clear hw
  have rule_case : ∀ {r : RuleInfo}, info objs k = .rule r → ∃ pr id p sh sp dh dp ic os, i = .rule pr ∧ objs k = .rule id p sh sp dh dp ic os ∧
      r = ⟨p, protocolName objs p, sh, sp, dp, dh, id, ic, os.filter (isTimeRange objs)⟩ ∧ OkEl items k p ∧ OkEl items k sh ∧ OkEl items k sp ∧ OkEl items k dh ∧ OkEl items k dp ∧
      (∀ x, ic = some x → OkEl items k x) ∧ ∀ x ∈ os, OkEl items k x := by
    intro r hr
    cases i with
    | rule pr =>
      obtain ⟨p, sh, sp, dh, dp, ic, os, h1, h2, h3, h4, h5, h6, h7, h8⟩ := hat
      have hids := R.ids k _ hi
      simp only [idsOf] at hids
      have hport : ∀ v e, (∀ q ∈ portIds v, q ∈ idsOf (.rule pr) ∧ ∃ n, inForce q.1 (items.take k) n = some q.2) → PortAt objs items v e → OkEl items k e := by
        intro v e hv he
        rcases v with _ | ⟨_ | _ | o | _⟩
        · rw [show e = .none from he]; intro o ho; cases ho
        · simp only [PortAt] at he; exact okEl_of (part_ok he)
        · simp only [PortAt] at he; exact okEl_of (part_ok he)
        · exact okEl_id hi (hv (.portGroup, o) (by simp [portIds])).1 (hv (.portGroup, o) (by simp [portIds])).2 he
        · simp only [PortAt] at he; exact okEl_of (part_ok he)
      rw [show info objs k = .rule ⟨p, protocolName objs p, sh, sp, dp, dh, some pr.id, ic, os.filter (isTimeRange objs)⟩ by simp [info, h1]] at hr
      refine ⟨pr, _, p, sh, sp, dh, dp, ic, os, rfl, h1, (Info.rule.inj hr).symm, ?_, okEl_of (host_ok hi (by simp [hostsOf]) (R.hosts k _ hi _ (by simp [hostsOf])) h3), ?_,
        okEl_of (host_ok hi (by simp [hostsOf]) (R.hosts k _ hi _ (by simp [hostsOf])) h5), ?_, ?_, ?_⟩
      · generalize hpr : pr.protocol = v at h2 hids
        cases v with
        | name n => simp only [ProtoAt] at h2; exact okEl_of (part_ok h2)
        | svcGroup o => exact okEl_id hi (by simp [idsOf, hpr, protoIds]) (hids (.svcGroup, o) (by simp [protoIds])) h2
        | protoGroup o => exact okEl_id hi (by simp [idsOf, hpr, protoIds]) (hids (.protoGroup, o) (by simp [protoIds])) h2
        | svcObj o => exact okEl_id hi (by simp [idsOf, hpr, protoIds]) (hids (.svcObj, o) (by simp [protoIds])) h2
      · exact hport _ _ (fun q hq => ⟨by simp [idsOf, hq], hids q (by simp [hq])⟩) h4
      · exact hport _ _ (fun q hq => ⟨by simp [idsOf, hq], hids q (by simp [hq])⟩) h6
      · intro x hx
        generalize hic : pr.icmp = v at h7 hids
        rcases v with _ | ⟨_ | o⟩
        · rw [show ic = none from h7] at hx; cases hx
        · obtain ⟨z, e1, e2⟩ := h7; rw [e1] at hx; cases hx; exact okEl_of (part_ok e2)
        · obtain ⟨z, e1, e2⟩ := h7; rw [e1] at hx; cases hx; exact okEl_id hi (by simp [idsOf, hic, icmpIds]) (hids (.icmpGroup, o) (by simp [icmpIds])) e2
      · intro x hx
        obtain ⟨o, ho, hio⟩ := each_mem h8 hx
        obtain ⟨q, hq, hqo⟩ := List.mem_filterMap.1 ho
        have : q.2 = .timeRange o := by
          revert hqo
          cases q.2 <;> simp
        have hm : (Config.Kind.timeRange, o) ∈ idsOf (.rule pr) := by
          simp only [idsOf, List.mem_append, List.mem_flatMap]
          exact Or.inr ⟨q, hq, by simp [this, optIds]⟩
        exact okEl_id (c := .timeRange) hi hm (hids (.timeRange, o) hm) hio
    | netObj n l x d =>
      cases x with
      | none => obtain ⟨as, h1, -⟩ := hat; simp [info, h1] at hr
      | some x => obtain ⟨-, _, _, h1, -⟩ := hat; simp [info, h1] at hr
    | netGroup | portGroup | svcGroup | icmpGroup | protoGroup => obtain ⟨_, h1, -⟩ := hat; simp [info, h1] at hr
    | nat => obtain ⟨_, _, h1, -⟩ := hat; simp [info, h1] at hr
    | _ => have h1 : objs k = _ := hat; simp [info, h1] at hr
  have nat_case : ∀ {a b : Option SideInfo}, info objs k = .nat a b → ∃ r m, a = some r ∧ b = some m ∧
      (∀ x, r.src = some x → OkEl items k x) ∧ (∀ x, r.dst = some x → OkEl items k x) ∧ (∀ x, m.src = some x → OkEl items k x) ∧ (∀ x, m.dst = some x → OkEl items k x) ∧
      OkEl items k r.iface ∧ OkEl items k m.iface ∧ OkEl items k r.service ∧ OkEl items k m.service := by
    intro a b hr
    have hnone : ∀ {e : El} {w : Obj → Prop}, e = .none ∨ Part items objs e w → OkEl items k e := by
      rintro e w (h | h)
      · rw [h]; intro o ho; cases ho
      · exact okEl_of (part_ok h)
    cases i with
    | netObj n l x d =>
      cases x with
      | none => obtain ⟨as, h1, -⟩ := hat; simp [info, h1] at hr
      | some x =>
        obtain ⟨-, r, m, h1, h2⟩ := hat
        simp only [info, h1, Info.nat.injEq] at hr
        have hl : ∀ h ∈ nodeHosts [x.real.dst, x.mapped.src, x.mapped.dst], h ∈ hostsOf (.netObj n l (some x) d) := fun h hh => hh
        refine ⟨r, m, hr.1.symm, hr.2.symm, ?_, fun y hy => node_ok R hi hl (by simp) h2.dst hy, fun y hy => node_ok R hi hl (by simp) h2.mappedSrc hy,
          fun y hy => node_ok R hi hl (by simp) h2.mappedDst hy, okEl_of (part_ok h2.iface), okEl_of (part_ok h2.mappedIface), hnone h2.service, hnone h2.mappedService⟩
        intro y hy
        rw [h2.src] at hy
        cases hy
        refine okEl_of ⟨_, rfl, Or.inr ⟨k, _, .netObj, n, hi, ?_, .source hi⟩⟩
        rw [linked_defines hi]
        have : objOid items k = items.length + k := by unfold objOid; rw [hi]
        simp [defName, this]
    | nat x =>
      obtain ⟨r, m, h1, h2⟩ := hat
      simp only [info, h1, Info.nat.injEq] at hr
      have hl : ∀ h ∈ nodeHosts [x.real.src, x.real.dst, x.mapped.src, x.mapped.dst], h ∈ hostsOf (.nat x) := fun h hh => hh
      refine ⟨r, m, hr.1.symm, hr.2.symm, fun y hy => node_ok R hi hl (by simp) h2.src hy, fun y hy => node_ok R hi hl (by simp) h2.dst hy,
        fun y hy => node_ok R hi hl (by simp) h2.mappedSrc hy,
        fun y hy => node_ok R hi hl (by simp) h2.mappedDst hy, okEl_of (part_ok h2.iface), okEl_of (part_ok h2.mappedIface),
        service_ok R hi (fun s hs => by simp [servicesOf, hs]) h2.service, service_ok R hi (fun s hs => by simp [servicesOf, hs]) h2.mappedService⟩
    | rule => obtain ⟨p, sh, sp, dh, dp, ic, os, h1, -⟩ := hat; simp [info, h1] at hr
    | netGroup | portGroup | svcGroup | icmpGroup | protoGroup => obtain ⟨_, h1, -⟩ := hat; simp [info, h1] at hr
    | _ => have h1 : objs k = _ := hat; simp [info, h1] at hr
  cases hy with
  | protocol h => obtain ⟨pr, id, p, sh, sp, dh, dp, ic, os, -, -, rfl, o1, o2, o3, o4, o5, o6, o7⟩ := rule_case h; exact o1
  | srcHost h => obtain ⟨pr, id, p, sh, sp, dh, dp, ic, os, -, -, rfl, o1, o2, o3, o4, o5, o6, o7⟩ := rule_case h; exact o2
  | dstHost h => obtain ⟨pr, id, p, sh, sp, dh, dp, ic, os, -, -, rfl, o1, o2, o3, o4, o5, o6, o7⟩ := rule_case h; exact o4
  | srcPort h => obtain ⟨pr, id, p, sh, sp, dh, dp, ic, os, -, -, rfl, o1, o2, o3, o4, o5, o6, o7⟩ := rule_case h; exact o3
  | dstPort h => obtain ⟨pr, id, p, sh, sp, dh, dp, ic, os, -, -, rfl, o1, o2, o3, o4, o5, o6, o7⟩ := rule_case h; exact o5
  | id h _ => intro o ho; cases ho
  | noId h _ => intro o ho; cases ho
  | icmp h _ hx => obtain ⟨pr, id, p, sh, sp, dh, dp, ic, os, -, -, rfl, o1, o2, o3, o4, o5, o6, o7⟩ := rule_case h; exact o6 _ hx
  | timeRange h hx =>
    obtain ⟨pr, id, p, sh, sp, dh, dp, ic, os, -, -, rfl, o1, o2, o3, o4, o5, o6, o7⟩ := rule_case h
    exact o7 _ (List.mem_filter.1 hx).1
  | natSrc h hs hx =>
    obtain ⟨r, m, rfl, rfl, o1, o2, o3, o4, o5, o6, o7, o8⟩ := nat_case h
    rcases hs with hs | hs <;> cases hs
    · exact o1 _ hx
    · exact o3 _ hx
  | natDst h hs hx =>
    obtain ⟨r, m, rfl, rfl, o1, o2, o3, o4, o5, o6, o7, o8⟩ := nat_case h
    rcases hs with hs | hs <;> cases hs
    · exact o2 _ hx
    · exact o4 _ hx
  | natIface h hs =>
    obtain ⟨r, m, rfl, rfl, o1, o2, o3, o4, o5, o6, o7, o8⟩ := nat_case h
    rcases hs with hs | hs <;> cases hs
    · exact o5
    · exact o6
  | natService h hs =>
    obtain ⟨r, m, rfl, rfl, o1, o2, o3, o4, o5, o6, o7, o8⟩ := nat_case h
    rcases hs with hs | hs <;> cases hs
    · exact o7
    · exact o8

/-- The members of groups. -/
theorem member_ok {o : Oid} {c : GroupClass} {n : String} {l : List El} (h : objs o = .group c n l) : ∀ x ∈ l, ∃ q, x = .obj q ∧ Ok items o q := by
  intro x hx
  by_cases hlt : o < items.length
  · have hi : items[o]? = some items[o] := List.getElem?_eq_getElem hlt
    have hat := B.item o _ hi
    have hids := R.ids o _ hi
    have hhosts := R.hosts o _ hi
    generalize items[o] = i at hi hat hids hhosts
    have idc : ∀ (k : Config.Kind) (w : Nat), (k, w) ∈ idsOf i → IdAt items w x → ∃ q, x = .obj q ∧ Ok items o q := by
      intro k w h1 h2
      obtain ⟨p, _, _, h3, -, -, -, h4⟩ := id_ok hi h1 (hids _ h1) h2
      exact ⟨p, h3, h4⟩
    cases i with
    | netGroup m hs d =>
      obtain ⟨ms, h1, h2⟩ := hat
      rw [h] at h1
      cases h1
      obtain ⟨y, hy, hr⟩ := each_mem h2 hx
      exact host_ok hi hy (hhosts y hy) hr
    | portGroup w m pr hs d =>
      obtain ⟨ms, h1, h2⟩ := hat
      rw [h] at h1
      cases h1
      obtain ⟨y, hy, hr⟩ := each_mem h2 hx
      cases y with
      | group v => exact idc .portGroup v (List.mem_flatMap.2 ⟨_, hy, by simp⟩) hr
      | _ => simp only [PortMemberAt] at hr; exact part_ok hr
    | svcGroup w m hs d =>
      obtain ⟨ms, h1, h2⟩ := hat
      rw [h] at h1
      cases h1
      obtain ⟨y, hy, hr⟩ := each_mem h2 hx
      cases y with
      | group v => exact idc .svcGroup v (List.mem_flatMap.2 ⟨_, hy, by simp⟩) hr
      | obj v => exact idc .svcObj v (List.mem_flatMap.2 ⟨_, hy, by simp⟩) hr
      | svc _ => simp only [SvcMemberAt] at hr; exact part_ok hr
    | icmpGroup w m hs d =>
      obtain ⟨ms, h1, h2⟩ := hat
      rw [h] at h1
      cases h1
      obtain ⟨y, hy, hr⟩ := each_mem h2 hx
      cases y with
      | group v => exact idc .icmpGroup v (List.mem_flatMap.2 ⟨_, hy, by simp⟩) hr
      | icmp _ => simp only [IcmpMemberAt] at hr; exact part_ok hr
    | protoGroup w m hs d =>
      obtain ⟨ms, h1, h2⟩ := hat
      rw [h] at h1
      cases h1
      obtain ⟨y, hy, hr⟩ := each_mem h2 hx
      cases y with
      | group v => exact idc .protoGroup v (List.mem_flatMap.2 ⟨_, hy, by simp⟩) hr
      | protocol _ => simp only [ProtoMemberAt] at hr; exact part_ok hr
    | netObj m hs z d =>
      cases z with
      | none => obtain ⟨as, h1, -⟩ := hat; rw [h] at h1; cases h1
      | some z => obtain ⟨-, _, _, h1, -⟩ := hat; rw [h] at h1; cases h1
    | nat => obtain ⟨_, _, h1, -⟩ := hat; rw [h] at h1; cases h1
    | rule => obtain ⟨_, _, _, _, _, _, _, h1, -⟩ := hat; rw [h] at h1; cases h1
    | _ => have h1 : objs o = _ := hat; rw [h] at h1; cases h1
  · rcases beyond B (Nat.le_of_not_lt hlt) with hp | ⟨_, _, _, _, _, _, -, -, h1, -⟩
    · exact absurd h ((isPart_name hp).2.1 c n l)
    · rw [h] at h1; cases h1

end

end Acltk.Page
