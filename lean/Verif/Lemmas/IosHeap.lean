import Verif.Spec.IosHeapSpec
import Verif.Props.IosRefs
import Verif.Props.FwsmPage
/-!
# The objects of an IOS text and the tables of its page
-/
namespace Acltk.IosPage
open Acltk Acltk.Resolve
open Acltk.Page hiding Item
open Acltk.FwsmText (netGroupDef idDef identOf HostInForce inForce lastOf protoIds portIds icmpIds)
open Acltk.IosText (Item IRule rulesOf defs hostsOf idsOf itemRules ruleIds Base)

variable {T : Type} {objs : Oid → Obj} {items : List Item}

/-- The tables of the page. -/
abbrev tb (items : List Item) : Page.Tables :=
  tablesOf (Config.buildIos (IosConfig.agName items) (fun _ => []) (fun _ => []) (Static.iosLinked items)).base

/-- The same without the rules. -/
abbrev tb' (items : List Item) : Page.Tables := tablesOf (Config.build (IosConfig.agName items) (fun _ => []) (Static.iosLinked items))

theorem table_eq (s : Sect) : (tb items).table s = (tb' items).table s := by cases s <;> first | rfl | (rename_i c; cases c <;> rfl)

/-! ## elements -/

/-- What an element defines: itself, if both grammars have it. -/
def bare : Item → FwsmText.Item
  | .base i => i
  | _ => .nothing

theorem defs_eq (items : List Item) : defs items = items.map bare := by
  unfold defs
  apply List.map_congr_left
  intro i _
  cases i <;> rfl

theorem defs_get {p : Nat} {d : FwsmText.Item} : (defs items)[p]? = some d ↔ ∃ i, items[p]? = some i ∧ bare i = d := by
  rw [defs_eq, List.getElem?_map, Option.map_eq_some_iff]

theorem defs_take (k : Nat) : defs (items.take k) = (defs items).take k := by rw [defs_eq, defs_eq, List.map_take]

/-- Something that has a name is an element both grammars have. -/
theorem def_base {p : Nat} {d : FwsmText.Item} {c : Config.Kind} {n : String} (h : (defs items)[p]? = some d) (hn : defName c d = some n) :
    items[p]? = some (.base d) := by
  obtain ⟨i, h1, rfl⟩ := defs_get.1 h
  cases i with
  | base j => exact h1
  | _ => cases c <;> cases hn

theorem netGroup_name {d : FwsmText.Item} {n : String} {l : List Host} (h : netGroupDef d = some (n, l)) : defName .netGroup d = some n := by
  cases d <;> simp [netGroupDef] at h
  simp [defName, h.1]

/-! ## rules -/

theorem rulesOf_eq (items : List Item) : rulesOf items = items.flatMap itemRules := by
  induction items with
  | nil => rfl
  | cons i is ih =>
    rw [List.flatMap_cons, ← ih]
    cases i <;> rfl

theorem rule_element : ∀ {items : List Item} {j : Nat} {r : IRule}, (rulesOf items)[j]? = some r →
    ∃ (k : Nat) (i : Item), items[k]? = some i ∧ InElement items j k ∧ r ∈ itemRules i := by
  intro items
  induction items with
  | nil => intro j r h; simp [rulesOf] at h
  | cons i is ih =>
    intro j r h
    have e : ∀ l : List Item, rulesOf (i :: l) = itemRules i ++ rulesOf l := by intro l; rw [rulesOf_eq, List.flatMap_cons, rulesOf_eq]
    rw [e] at h
    by_cases hj : j < (itemRules i).length
    · rw [List.getElem?_append_left hj] at h
      refine ⟨0, i, rfl, ⟨by simp [rulesOf], ?_⟩, List.mem_of_getElem? h⟩
      rw [List.take_succ_cons, e, List.length_append]
      exact Nat.lt_of_lt_of_le hj (Nat.le_add_right _ _)
    · rw [List.getElem?_append_right (Nat.le_of_not_lt hj)] at h
      obtain ⟨k, x, h1, ⟨h2, h3⟩, h4⟩ := ih h
      refine ⟨k + 1, x, by simpa using h1, ⟨?_, ?_⟩, h4⟩
      · rw [List.take_succ_cons, e, List.length_append]
        omega
      · rw [List.take_succ_cons, e, List.length_append]
        omega

/-! ## the parse result as the constructor sees it -/

theorem linked_get (p : Nat) : (Static.iosLinked items)[p]? = items[p]?.map fun i =>
    Static.shift (rulesOf items).length (IosConfig.link p (IosConfig.counted 0 (items.take p)) (IosConfig.learned 0 [] (items.take p)) i) := by
  unfold Static.iosLinked
  rw [List.getElem?_map, IosConfig.number_get, Option.map_map]
  simp only [Nat.zero_add]
  rfl

theorem linked_defines (a p r : Nat) (d : Dict Ifc.Intf Oid) (i : Item) (c : Config.Kind) :
    Config.definesOf c (Static.shift a (IosConfig.link p r d i)) = (defName c (bare i)).map fun n => (n, a + p) := by
  cases i with
  | base j => cases j <;> cases c <;> rfl
  | _ => cases c <;> rfl

theorem mem_linked {x : Config.Item} (h : x ∈ Static.iosLinked items) : ∃ (p : Nat) (i : Item) (r : Nat) (d : Dict Ifc.Intf Oid), items[p]? = some i ∧
    x = Static.shift (rulesOf items).length (IosConfig.link p r d i) := by
  obtain ⟨p, hp⟩ := List.mem_iff_getElem?.1 h
  rw [linked_get, Option.map_eq_some_iff] at hp
  obtain ⟨i, h1, h2⟩ := hp
  exact ⟨p, i, _, _, h1, h2.symm⟩

/-- What is known of the elements of an accepted text. -/
structure Refs (items : List Item) : Prop where
  hosts : ∀ (k : Nat) i, items[k]? = some i → ∀ x ∈ hostsOf i, HostInForce ((defs items).take k) x
  ids : ∀ (k : Nat) i, items[k]? = some i → ∀ p ∈ idsOf i, ∃ n, inForce p.1 ((defs items).take k) n = some p.2
  only : ∀ (k : Nat) i, items[k]? = some i → (∀ x ∈ hostsOf i, ∀ n l, x ≠ .obj n l) ∧ ∀ p ∈ idsOf i, p.1 ≠ .svcObj ∧ p.1 ≠ .timeRange
  base : ∀ i ∈ items, Base i
  noBase : IosConfig.NoBase items

theorem refs_of {g : Lookup.Guard} {t r : List Char} (h : IosText.parseFile g t = .ok items r) : Refs items where
  hosts k i hi x hx := by have := (C112_references h hi).1 x hx; rwa [defs_take] at this
  ids k i hi p hp := by have := (C112_references h hi).2 p hp; rwa [defs_take] at this
  only k i hi := C112_only_groups h (List.mem_of_getElem? hi)
  base := IosText.parseFile_base h
  noBase := Accepted.ios_noBase (IosText.parseFile_items h)

/-! ## tables -/

theorem rules_eq (R : Refs items) : (tb items).rules = List.range (rulesOf items).length := by
  rw [← IosConfig.build_rules items R.noBase]
  exact Static.tables_rules (T := Unit) (.ios items)

theorem base_name (R : Refs items) {p : Nat} {d : FwsmText.Item} {c : Config.Kind} {n : String} (h : (defs items)[p]? = some d) (hn : defName c d = some n) :
    c ≠ .netObj ∧ c ≠ .svcObj ∧ c ≠ .timeRange := by
  have hb := R.base _ (List.mem_of_getElem? (def_base h hn)) d rfl
  rcases hb with ⟨_, rfl⟩ | ⟨_, rfl⟩ | ⟨_, rfl⟩ | ⟨_, rfl⟩ | rfl | ⟨_, _, _, rfl⟩ | ⟨_, _, _, _, _, rfl⟩ | ⟨_, _, _, _, rfl⟩ | ⟨_, _, _, _, rfl⟩ | ⟨_, _, _, _, rfl⟩ <;>
    cases c <;> first | (cases hn; done) | simp

theorem at_linked {p : Nat} {x : Config.Item} : (Static.iosLinked items)[p]? = some x → ∃ i, items[p]? = some i ∧
    ∀ c, Config.definesOf c x = (defName c (bare i)).map fun n => (n, oid items p) := by
  intro h
  rw [linked_get, Option.map_eq_some_iff] at h
  obtain ⟨i, h1, rfl⟩ := h
  exact ⟨i, h1, fun c => linked_defines _ _ _ _ _ c⟩

/-- The table of a kind has the last definition of each name. -/
theorem table_iff (R : Refs items) (c : Config.Kind) (n : String) (o : Oid) :
    dGet ((tb items).table (sectOf c)) n = some o ↔ ∃ p, Kept items c n p ∧ o = oid items p := by
  rw [table_eq, table_kept]
  have at' : ∀ {q : Nat} {d : FwsmText.Item}, (defs items)[q]? = some d → ∃ x, (Static.iosLinked items)[q]? = some x ∧
      Config.definesOf c x = (defName c d).map fun n => (n, oid items q) := by
    intro q d hd
    obtain ⟨i, h1, rfl⟩ := defs_get.1 hd
    refine ⟨_, by rw [linked_get, h1]; rfl, linked_defines _ _ _ _ _ c⟩
  unfold keptDef
  by_cases hc : c = .netObj
  · rw [if_pos hc]
    constructor
    · intro h
      obtain ⟨p, x, h1, h2, -⟩ := (defs_head _ _ _ _).1 h
      obtain ⟨i, h3, h4⟩ := at_linked h1
      rw [h4, Option.map_eq_some_iff] at h2
      obtain ⟨m, h5, -⟩ := h2
      exact absurd hc (base_name R (defs_get.2 ⟨i, h3, rfl⟩) h5).1
    · rintro ⟨p, ⟨⟨i, h1, h2⟩, -⟩, -⟩
      exact absurd hc (base_name R h1 h2).1
  · rw [if_neg hc, defs_last]
    constructor
    · rintro ⟨p, x, h1, h2, h3⟩
      obtain ⟨i, h4, h5⟩ := at_linked h1
      rw [h5, Option.map_eq_some_iff] at h2
      obtain ⟨m, h6, h7⟩ := h2
      cases h7
      refine ⟨p, ⟨⟨bare i, defs_get.2 ⟨i, h4, rfl⟩, h6⟩, ?_⟩, rfl⟩
      intro q j hj hjn
      refine Nat.le_of_not_lt fun hq => ?_
      obtain ⟨y, hy, e⟩ := at' hj
      exact h3 q y _ hq hy (by rw [e, hjn]; rfl)
    · rintro ⟨p, ⟨⟨i, h1, h2⟩, h3⟩, rfl⟩
      obtain ⟨x, hx, e⟩ := at' h1
      refine ⟨p, x, hx, by rw [e, h2]; rfl, ?_⟩
      intro q y m hq hy hm
      obtain ⟨j, h4, h5⟩ := at_linked hy
      rw [h5, Option.map_eq_some_iff] at hm
      obtain ⟨a, h6, h7⟩ := hm
      cases h7
      exact absurd (h3 q _ (defs_get.2 ⟨j, h4, rfl⟩) h6) (Nat.not_le.2 hq)

theorem nat_nil (R : Refs items) : (tb items).nat = [] := by
  apply List.eq_nil_iff_forall_not_mem.2
  intro o ho
  have ho : o ∈ (tb' items).nat := ho
  obtain ⟨x, hx, m, hm⟩ := mem_nat ho
  obtain ⟨p, i, r, d, h1, rfl⟩ := mem_linked hx
  rw [Static.shift_natOf] at hm
  cases i with
  | base j =>
    have hb := R.base _ (List.mem_of_getElem? h1) j rfl
    rcases hb with ⟨_, rfl⟩ | ⟨_, rfl⟩ | ⟨_, rfl⟩ | ⟨_, rfl⟩ | rfl | ⟨_, _, _, rfl⟩ | ⟨_, _, _, _, _, rfl⟩ | ⟨_, _, _, _, rfl⟩ | ⟨_, _, _, _, rfl⟩ | ⟨_, _, _, _, rfl⟩ <;>
      cases hm
  | _ => cases hm

theorem names_nil (R : Refs items) : (tb items).names = [] := by
  apply List.eq_nil_iff_forall_not_mem.2
  intro o ho
  have ho := (run_names (IosConfig.agName items) (fun _ => []) (Static.iosLinked items) (Static.iosLinked items) o).1 ho
  obtain ⟨p, i, r, d, h1, h2⟩ := mem_linked ho
  cases i with
  | base j =>
    have hb := R.base _ (List.mem_of_getElem? h1) j rfl
    rcases hb with ⟨_, rfl⟩ | ⟨_, rfl⟩ | ⟨_, rfl⟩ | ⟨_, rfl⟩ | rfl | ⟨_, _, _, rfl⟩ | ⟨_, _, _, _, _, rfl⟩ | ⟨_, _, _, _, rfl⟩ | ⟨_, _, _, _, rfl⟩ | ⟨_, _, _, _, rfl⟩ <;>
      cases h2
  | _ => cases h2

theorem iface_get (n : String) : dGet ((tb items).table .interface) n =
    (((Static.iosLinked items).filterMap Config.ifaceOf).reverse.find? (fun j => j.alias == n)).map (·.oid) := by
  have key : ∀ d : Dict String Config.Iface, dGet (d.map fun p => (p.1, p.2.oid)) n = (dGet d n).map (·.oid) := by
    intro d
    induction d with
    | nil => rfl
    | cons p t ih =>
      obtain ⟨a, b⟩ := p
      simp only [List.map_cons, dGet]
      split
      · rfl
      · exact ih
  rw [table_eq]
  show dGet ((Config.build (IosConfig.agName items) (fun _ => []) (Static.iosLinked items)).interfaces.map fun p => (p.1, p.2.oid)) n = _
  rw [key]
  congr 1
  exact (Config.run_ifaces _ _ (Static.iosLinked items) (Static.iosLinked items)).2 n

/-- The table of interfaces has interfaces of the text, under their names. -/
theorem table_iface {n : String} {o : Oid} (h : dGet ((tb items).table .interface) n = some o) :
    ∃ (p : Nat) (i : Ifc.Intf), items[p]? = some (.base (.iface i)) ∧ i.alias = n ∧ o = oid items p := by
  rw [iface_get] at h
  obtain ⟨j, hj, rfl⟩ := Option.map_eq_some_iff.1 h
  have hp := List.find?_some hj
  have hm := List.mem_of_find?_eq_some hj
  rw [List.mem_reverse] at hm
  obtain ⟨x, hx, e⟩ := List.mem_filterMap.1 hm
  obtain ⟨p, i, r, d, h1, rfl⟩ := mem_linked hx
  cases i with
  | base j =>
    cases j <;> simp only [IosConfig.link, CafFilter.link, Static.shift, Config.ifaceOf] at e <;> first | (cases e; done) | skip
    cases e
    exact ⟨p, _, h1, by simpa using hp, rfl⟩
  | _ => cases e

theorem table_iface_all {p : Nat} {i : Ifc.Intf} (hi : items[p]? = some (.base (.iface i))) : ∃ o, dGet ((tb items).table .interface) i.alias = some o := by
  cases h : dGet ((tb items).table .interface) i.alias with
  | some o => exact ⟨o, rfl⟩
  | none =>
    rw [iface_get, Option.map_eq_none_iff, List.find?_eq_none] at h
    have hx := linked_get (items := items) p
    rw [hi, Option.map_some] at hx
    have := h _ (List.mem_reverse.2 (List.mem_filterMap.2 ⟨_, List.mem_of_getElem? hx, rfl⟩))
    simp at this

end Acltk.IosPage
