import Verif.Spec.PfHeapSpec
import Verif.Props.FwsmPage
import Verif.Props.PfFilter
/-!
# The objects of a pfSense configuration and the tables of its page
-/
namespace Acltk.PfPage
open Acltk Acltk.Resolve Acltk.Page Acltk.Pf

variable {T : Type} {objs : Oid → Obj} {p : Pf.Parsed T}

/-- The tables of the page. -/
abbrev tb (m : Nat) (p : Pf.Parsed T) : Page.Tables := tablesOf (PfFilter.build m p)

theorem getLast_filterMap {α β : Type} {f : α → Option β} : ∀ {l : List α} {m : β}, (l.filterMap f).getLast? = some m →
    ∃ (j : Nat) (x : α), l[j]? = some x ∧ f x = some m ∧ ∀ (q : Nat) y, j < q → l[q]? = some y → f y = none := by
  intro l
  induction l with
  | nil => intro m h; cases h
  | cons x t ih =>
    intro m h
    by_cases ht : t.filterMap f = []
    · rw [List.filterMap_cons, ht] at h
      cases hx : f x with
      | none => rw [hx] at h; cases h
      | some y =>
        rw [hx] at h
        cases h
        refine ⟨0, x, rfl, hx, ?_⟩
        intro q y hq hy
        cases q with
        | zero => exact absurd hq (Nat.lt_irrefl _)
        | succ q => exact (List.filterMap_eq_nil_iff.1 ht) y (List.mem_iff_getElem?.2 ⟨q, by simpa using hy⟩)
    · have : (t.filterMap f).getLast? = some m := by
        rw [List.filterMap_cons] at h
        split at h
        · exact h
        · rw [List.getLast?_cons] at h
          cases hc : (t.filterMap f).getLast? with
          | none => exact absurd (List.getLast?_eq_none_iff.1 hc) ht
          | some z => rw [hc] at h; exact h
      obtain ⟨j, y, h1, h2, h3⟩ := ih this
      refine ⟨j + 1, y, by simpa using h1, h2, ?_⟩
      intro q z hq hz
      cases q with
      | zero => omega
      | succ q => exact h3 q z (by omega) (by simpa using hz)

theorem lastAlias_unique {c : GroupClass} {n : Option String} {i j : Nat} (hi : LastAlias p c n i) (hj : LastAlias p c n j) : i = j := by
  obtain ⟨⟨g, h1, h2⟩, h3⟩ := hi
  obtain ⟨⟨g', h4, h5⟩, h6⟩ := hj
  rcases Nat.lt_trichotomy i j with h | h | h
  · exact absurd h5 (h3 j g' h h4)
  · exact h
  · exact absurd h2 (h6 i g h h1)

/-! ## what a rule refers to -/

/-- A host of a rule. -/
inductive HostRef (p : Pf.Parsed T) : Host → Prop
  | any : HostRef p .any
  | host (a : Addr) : HostRef p (.host a)
  | net (n : Net) : HostRef p (.net n)
  | iface (i : Ifc.Intf) : i ∈ p.interfaces → HostRef p (.iface i.alias)
  | group (n : String) (l : List Host) (j : Nat) (d : String) : LastAlias p .network (some n) j → p.groups[j]? = some (.net (some n) d l) → HostRef p (.group n l)

/-- A port of a rule. -/
inductive PortOk (p : Pf.Parsed T) : Option PortRef → Prop
  | none : PortOk p none
  | leaf (x : PortLeaf) : PortOk p (some (.leaf x))
  | group (n : String) (l : List PortLeaf) (j : Nat) (d : String) : LastAlias p .port (some n) j → p.groups[j]? = some (.port (some n) d l) →
      PortOk p (some (.group (some n) l))

theorem nets_ref (hN : Named p) {t : Pf.Tables} (ht : TablesOf p.groups p.interfaces t) {k : Option String} {g : Host} (h : dGet t.nets k = some g) : HostRef p g := by
  rw [ht.nets, Option.map_eq_some_iff] at h
  obtain ⟨l, h1, rfl⟩ := h
  obtain ⟨j, x, h2, h3, h4⟩ := getLast_filterMap h1
  cases x with
  | port n d m => cases h3
  | net n d m =>
    simp only [AliasGroup.netOf] at h3
    split at h3
    · rename_i hk
      cases h3
      subst hk
      cases n with
      | none => exact absurd rfl (hN _ (List.mem_iff_getElem?.2 ⟨j, h2⟩))
      | some n =>
        refine .group n _ j d ⟨⟨_, h2, rfl⟩, ?_⟩ h2
        intro q g hq hg e
        have := h4 q g hq hg
        cases g with
        | port => cases e
        | net n' d' m' => cases e; simp [AliasGroup.netOf] at this
    · cases h3

theorem ports_ref (hN : Named p) {t : Pf.Tables} (ht : TablesOf p.groups p.interfaces t) {k : Option String} {g : PortRef} (h : dGet t.ports k = some g) :
    PortOk p (some g) := by
  rw [ht.ports, Option.map_eq_some_iff] at h
  obtain ⟨l, h1, rfl⟩ := h
  obtain ⟨j, x, h2, h3, h4⟩ := getLast_filterMap h1
  cases x with
  | net n d m => cases h3
  | port n d m =>
    simp only [AliasGroup.portOf] at h3
    split at h3
    · rename_i hk
      cases h3
      subst hk
      cases n with
      | none => exact absurd rfl (hN _ (List.mem_iff_getElem?.2 ⟨j, h2⟩))
      | some n =>
        refine .group n _ j d ⟨⟨_, h2, rfl⟩, ?_⟩ h2
        intro q g hq hg e
        have := h4 q g hq hg
        cases g with
        | net => cases e
        | port n' d' m' => cases e; simp [AliasGroup.portOf] at this
    · cases h3

theorem node_refs (hN : Named p) {t : Pf.Tables} (ht : TablesOf p.groups p.interfaces t) {e : Elem} {n : PNode} (h : NodeMeans t e n) :
    HostRef p n.host ∧ PortOk p n.port := by
  constructor
  · obtain ⟨c, -, hm⟩ := h.host
    generalize n.host = x at hm
    cases hm with
    | any => exact .any
    | alias _ h1 => exact nets_ref hN ht (by assumption)
    | host => exact .host _
    | net => exact .net _
    | iface s o h1 h2 h3 =>
      rw [ht.ifaces] at h3
      exact .iface o ((List.mem_filter.1 (List.mem_of_getLast? h3)).1)
  · have hp := h.port
    cases hc : lastChild e "port" with
    | none => rw [hc] at hp; simp only at hp; rw [hp]; exact .none
    | some c =>
      rw [hc] at hp
      obtain ⟨q, h1, h2⟩ := hp
      rw [h1]
      cases h2 with
      | alias _ h3 => exact ports_ref hN ht h3
      | one => exact .leaf _
      | range => exact .leaf _

/-- What a rule of an accepted configuration refers to. -/
theorem rule_refs {v : Env T} {root : Elem} (h : Pf.parse v root = .ok p) (hN : Named p) {r : PfRule T} (hr : r ∈ p.rules) :
    (HostRef p r.src.host ∧ PortOk p r.src.port) ∧ HostRef p r.dst.host ∧ PortOk p r.dst.port := by
  obtain ⟨-, -, -, ⟨t, ht, hall⟩, -⟩ := C61_configuration v root p h
  obtain ⟨e, -, he⟩ := All2.mem_right hall r hr
  have S := PfFilter.states he
  have key : ∀ {c : Option Elem} {n : PNode}, (match c with | none => n = ⟨.any, none⟩ | some c => NodeMeans t c n) → HostRef p n.host ∧ PortOk p n.port := by
    intro c n hn
    cases c with
    | none => simp only at hn; subst hn; exact ⟨.any, .none⟩
    | some c => exact node_refs hN ht hn
  exact ⟨key S.source, key S.destination⟩

/-! ## the tables -/

theorem mem_items {m : Nat} {x : Config.Item} (h : x ∈ PfFilter.items m p) : x = .other 0 ∨
    (∃ (j : Nat) (g : AliasGroup), p.groups[j]? = some g ∧ x = PfFilter.linkGroup (p.rules.length + j) g) ∨
    (∃ (j : Nat) (i : Ifc.Intf), p.interfaces[j]? = some i ∧ x = .iface ⟨p.rules.length + p.groups.length + j, i.alias, i.nameif, i.addresses.map (·.2)⟩) ∨
    (∃ k, k < p.rules.length ∧ x = .rule k) ∨ ∃ s, x = .hostname s := by
  simp only [PfFilter.items, List.mem_append, List.mem_map, List.mem_replicate] at h
  rcases h with (((⟨-, rfl⟩ | ⟨⟨g, k⟩, hg, rfl⟩) | ⟨⟨i, k⟩, hi, rfl⟩) | ⟨k, hk, rfl⟩) | ⟨s, -, rfl⟩
  · exact Or.inl rfl
  · obtain ⟨h1, h2⟩ := List.mem_zipIdx_iff_le_and_getElem?_sub.1 hg
    refine Or.inr (Or.inl ⟨k - p.rules.length, g, h2, ?_⟩)
    simp only
    rw [show p.rules.length + (k - p.rules.length) = k by simp only at h1; omega]
  · obtain ⟨h1, h2⟩ := List.mem_zipIdx_iff_le_and_getElem?_sub.1 hi
    refine Or.inr (Or.inr (Or.inl ⟨k - (p.rules.length + p.groups.length), i, h2, ?_⟩))
    simp only
    rw [show p.rules.length + p.groups.length + (k - (p.rules.length + p.groups.length)) = k by simp only at h1; omega]
  · exact Or.inr (Or.inr (Or.inr (Or.inl ⟨k, List.mem_range.1 hk, rfl⟩)))
  · exact Or.inr (Or.inr (Or.inr (Or.inr ⟨s, rfl⟩)))

/-- The kind of definitions of an alias. -/
def kind : GroupClass → Config.Kind
  | .port => .portGroup
  | _ => .netGroup

/-- The definition of that kind and name. -/
def defines (k : Config.Kind) (n : String) (x : AliasGroup × Nat) : Option Oid :=
  match Config.definesOf k (PfFilter.linkGroup x.2 x.1) with
  | some (a, o) => if a == n then some o else none
  | none => none

theorem defsOf_items (m : Nat) (k : Config.Kind) (n : String) :
    Config.defsOf k (PfFilter.items m p) n = (p.groups.zipIdx p.rules.length).filterMap (defines k n) := by
  have e : (PfFilter.items m p).filterMap (Config.definesOf k) =
      (p.groups.zipIdx p.rules.length).filterMap fun x => Config.definesOf k (PfFilter.linkGroup x.2 x.1) := by
    unfold PfFilter.items
    have h2 : ∀ l : List (Ifc.Intf × Nat), (l.map (fun x => Config.Item.iface ⟨x.2, x.1.alias, x.1.nameif, x.1.addresses.map (·.2)⟩)).filterMap
        (Config.definesOf k) = [] := by
      intro l
      rw [List.filterMap_map, List.filterMap_eq_nil_iff]
      rintro x -
      cases k <;> rfl
    have h3 : ∀ l : List Nat, (l.map Config.Item.rule).filterMap (Config.definesOf k) = [] := by
      intro l
      rw [List.filterMap_map, List.filterMap_eq_nil_iff]
      rintro x -
      cases k <;> rfl
    have h4 : (p.hostname.toList.map Config.Item.hostname).filterMap (Config.definesOf k) = [] := by
      rw [List.filterMap_map, List.filterMap_eq_nil_iff]
      rintro x -
      cases k <;> rfl
    have h5 : (List.replicate m (Config.Item.other 0)).filterMap (Config.definesOf k) = [] := by
      rw [List.filterMap_eq_nil_iff]
      intro x hx
      rw [(List.mem_replicate.1 hx).2]
      cases k <;> rfl
    simp only [List.filterMap_append, h2, h3, h4, h5, List.nil_append, List.append_nil, List.filterMap_map]
    rfl
  unfold Config.defsOf
  rw [e]
  generalize p.groups.zipIdx p.rules.length = l
  induction l with
  | nil => rfl
  | cons x t ih =>
    rw [List.filterMap_cons, List.filterMap_cons]
    unfold defines
    cases hx : Config.definesOf k (PfFilter.linkGroup x.2 x.1) with
    | none => exact ih
    | some y =>
      obtain ⟨a, o⟩ := y
      simp only [List.filter_cons]
      by_cases ha : (a == n) = true
      · simp only [ha, if_true, List.map_cons]; rw [ih]; rfl
      · simp only [ha]; exact ih

theorem defines_iff {c : GroupClass} (hc : c = .network ∨ c = .port) {n : String} {g : AliasGroup} (hg : (aliasName g).2 ≠ none) {k : Nat} {o : Oid} :
    defines (kind c) n (g, k) = some o ↔ aliasName g = (c, some n) ∧ o = k := by
  cases g with
  | net a d l =>
    cases a with
    | none => exact absurd rfl hg
    | some a =>
      rcases hc with rfl | rfl
      · simp only [defines, PfFilter.linkGroup, kind, Config.definesOf, aliasName, Option.getD_some, beq_iff_eq]
        constructor
        · intro h
          split at h
          · rename_i e; cases h; subst e; exact ⟨rfl, rfl⟩
          · cases h
        · rintro ⟨h, rfl⟩
          cases h
          rw [if_pos rfl]
      · simp [defines, PfFilter.linkGroup, kind, Config.definesOf, aliasName]
  | port a d l =>
    cases a with
    | none => exact absurd rfl hg
    | some a =>
      rcases hc with rfl | rfl
      · simp [defines, PfFilter.linkGroup, kind, Config.definesOf, aliasName]
      · simp only [defines, PfFilter.linkGroup, kind, Config.definesOf, aliasName, Option.getD_some, beq_iff_eq]
        constructor
        · intro h
          split at h
          · rename_i e; cases h; subst e; exact ⟨rfl, rfl⟩
          · cases h
        · rintro ⟨h, rfl⟩
          cases h
          rw [if_pos rfl]

/-- The table of an alias kind has the last alias of each name. -/
theorem table_alias (hN : Named p) (m : Nat) {c : GroupClass} (hc : c = .network ∨ c = .port) (n : String) (o : Oid) :
    dGet ((tb m p).table (.group c)) n = some o ↔ ∃ j, LastAlias p c (some n) j ∧ o = p.rules.length + j := by
  have hs : Sect.group c = sectOf (kind c) := by rcases hc with rfl | rfl <;> rfl
  have e : dGet ((tb m p).table (.group c)) n = ((p.groups.zipIdx p.rules.length).filterMap (defines (kind c) n)).getLast? := by
    rw [hs, table_of_sect, ← defsOf_items m]
    exact (Config.C36_definition_tables (fun _ => "") (fun _ => []) (PfFilter.items m p) n).1 (kind c) (by rcases hc with rfl | rfl <;> simp [kind])
  have at' : ∀ (q : Nat) g k, (p.groups.zipIdx p.rules.length)[q]? = some (g, k) ↔ p.groups[q]? = some g ∧ k = p.rules.length + q := by
    intro q g k
    rw [List.getElem?_zipIdx]
    simp only [Option.map_eq_some_iff, Prod.mk.injEq]
    constructor
    · rintro ⟨a, h1, rfl, rfl⟩; exact ⟨h1, rfl⟩
    · rintro ⟨h1, rfl⟩; exact ⟨g, h1, rfl, rfl⟩
  have named : ∀ (q : Nat) g, p.groups[q]? = some g → (aliasName g).2 ≠ none := fun q g h => hN g (List.mem_iff_getElem?.2 ⟨q, h⟩)
  have fwd : ∀ o, ((p.groups.zipIdx p.rules.length).filterMap (defines (kind c) n)).getLast? = some o → ∃ j, LastAlias p c (some n) j ∧ o = p.rules.length + j := by
    intro o h
    obtain ⟨j, ⟨g, k⟩, h1, h2, h3⟩ := getLast_filterMap h
    obtain ⟨h4, rfl⟩ := (at' j g k).1 h1
    obtain ⟨h5, rfl⟩ := (defines_iff hc (named j g h4)).1 h2
    refine ⟨j, ⟨⟨g, h4, h5⟩, ?_⟩, rfl⟩
    intro q g' hq hg' e'
    have := h3 q (g', p.rules.length + q) hq ((at' q g' _).2 ⟨hg', rfl⟩)
    rw [(defines_iff hc (named q g' hg')).2 ⟨e', rfl⟩] at this
    cases this
  rw [e]
  constructor
  · exact fwd o
  · rintro ⟨j, hj, rfl⟩
    cases hl : ((p.groups.zipIdx p.rules.length).filterMap (defines (kind c) n)).getLast? with
    | none =>
      obtain ⟨⟨g, h1, h2⟩, -⟩ := hj
      have := List.filterMap_eq_nil_iff.1 (List.getLast?_eq_none_iff.1 hl) (g, p.rules.length + j) (List.mem_iff_getElem?.2 ⟨j, (at' j g _).2 ⟨h1, rfl⟩⟩)
      rw [(defines_iff hc (named j g h1)).2 ⟨h2, rfl⟩] at this
      cases this
    | some o =>
      obtain ⟨j', hj', rfl⟩ := fwd o hl
      rw [lastAlias_unique hj hj']

/-- The other tables are empty, but that of the interfaces. -/
theorem table_other (m : Nat) {s : Sect} {n : String} {o : Oid} (h : dGet ((tb m p).table s) n = some o) : s = .interface ∨ s = .group .network ∨ s = .group .port := by
  by_cases h1 : s = .interface
  · exact Or.inl h1
  · by_cases h2 : s = .names
    · subst h2; cases h
    · obtain ⟨k, rfl⟩ := sectOf_surj h1 h2
      rw [table_of_sect] at h
      have hm : o ∈ Config.defsOf k (PfFilter.items m p) n := by
        obtain ⟨e1, e2, -⟩ := Config.C36_definition_tables (fun _ => "") (fun _ => []) (PfFilter.items m p) n
        by_cases hk : k = .netObj
        · subst hk; exact List.mem_of_head? (e2.symm.trans h)
        · exact List.mem_of_getLast? ((e1 k hk).symm.trans h)
      obtain ⟨x, hx, hd⟩ := mem_defsOf.1 hm
      rcases mem_items hx with rfl | ⟨j, g, -, rfl⟩ | ⟨j, i, -, rfl⟩ | ⟨k0, -, rfl⟩ | ⟨s, rfl⟩
      · cases k <;> cases hd
      · cases g <;> cases k <;> first | (cases hd; done) | simp [sectOf]
      all_goals (cases k <;> cases hd)

theorem iface_get (m : Nat) (n : String) : dGet ((tb m p).table .interface) n =
    (((PfFilter.items m p).filterMap Config.ifaceOf).reverse.find? (fun j => j.alias == n)).map (·.oid) := by
  have key : ∀ d : Dict String Config.Iface, dGet (d.map fun p => (p.1, p.2.oid)) n = (dGet d n).map (·.oid) := by
    intro d
    induction d with
    | nil => rfl
    | cons p t ih =>
      obtain ⟨a, b⟩ := p
      simp only [List.map_cons, dGet]
      split
      · rfl
      · exact ih
  show dGet ((PfFilter.build m p).interfaces.map fun p => (p.1, p.2.oid)) n = _
  rw [key]
  congr 1
  exact (Config.run_ifaces (fun _ => "") (fun _ => []) (PfFilter.items m p) (PfFilter.items m p)).2 n

/-- The table of interfaces has interfaces of the configuration, under their names. -/
theorem table_iface (m : Nat) {n : String} {o : Oid} (h : dGet ((tb m p).table .interface) n = some o) :
    ∃ (j : Nat) (i : Ifc.Intf), p.interfaces[j]? = some i ∧ i.alias = n ∧ o = p.rules.length + p.groups.length + j := by
  rw [iface_get] at h
  obtain ⟨j, hj, rfl⟩ := Option.map_eq_some_iff.1 h
  have hp := List.find?_some hj
  have hm := List.mem_of_find?_eq_some hj
  rw [List.mem_reverse] at hm
  obtain ⟨x, hx, e⟩ := List.mem_filterMap.1 hm
  rcases mem_items hx with rfl | ⟨k, g, -, rfl⟩ | ⟨k, i, hi, rfl⟩ | ⟨k0, -, rfl⟩ | ⟨s, rfl⟩
  · cases e
  · cases g <;> cases e
  · cases e
    exact ⟨k, i, hi, by simpa using hp, rfl⟩
  · cases e
  · cases e

theorem table_iface_all (m : Nat) {i : Ifc.Intf} (hi : i ∈ p.interfaces) : ∃ o, dGet ((tb m p).table .interface) i.alias = some o := by
  obtain ⟨j, hj⟩ := List.mem_iff_getElem?.1 hi
  cases h : dGet ((tb m p).table .interface) i.alias with
  | some o => exact ⟨o, rfl⟩
  | none =>
    rw [iface_get, Option.map_eq_none_iff, List.find?_eq_none] at h
    have hmem : (⟨p.rules.length + p.groups.length + j, i.alias, i.nameif, i.addresses.map (·.2)⟩ : Config.Iface) ∈
        ((PfFilter.items m p).filterMap Config.ifaceOf).reverse := by
      rw [List.mem_reverse, List.mem_filterMap]
      refine ⟨.iface ⟨p.rules.length + p.groups.length + j, i.alias, i.nameif, i.addresses.map (·.2)⟩, ?_, rfl⟩
      simp only [PfFilter.items, List.mem_append, List.mem_map]
      refine Or.inl (Or.inl (Or.inr ⟨(i, p.rules.length + p.groups.length + j), ?_, rfl⟩))
      exact List.mem_zipIdx_iff_le_and_getElem?_sub.2 ⟨by simp, by simpa using hj⟩
    exact absurd (h _ hmem) (by simp)

end Acltk.PfPage
