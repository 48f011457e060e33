import Verif.Lemmas.IfaceWords
import Verif.Props.TimeSection
/-!
# C123: what the section of an interface says
-/
namespace Acltk.Cells
open Acltk Acltk.Ifc

theorem addr_slash {a : Addr} (ha : a.Valid) : '/' ∉ a.text := (ipAddress_ok (ipAddress_text ha)).1

theorem addrText_inj {a b : Addr} (ha : a.Valid) (hb : b.Valid) (h : a.text = b.text) : a = b := by
  have h1 := ipAddress_text ha
  rw [h, ipAddress_text hb] at h1
  cases h1
  rfl

theorem ifAddr_iff {p : Addr × Net} (hp : p.1.Valid) (x : Addr × Nat) : ReadsIfAddr (ifAddrText p) x ↔ x = (p.1, p.2.plen) := by
  constructor
  · rintro ⟨hx, q, e, hq⟩
    obtain ⟨e1, rfl⟩ := first_sep (addr_slash hp) (addr_slash hx) e
    obtain ⟨a, k⟩ := x
    obtain rfl : p.1 = a := addrText_inj hp hx e1
    obtain rfl : p.2.plen = k := num_unique (num_dec _) hq
    rfl
  · rintro rfl
    exact ⟨hp, _, rfl, num_dec _⟩

theorem digits_not_mem {s : List Char} (h : ∀ c ∈ s, c.isDigit = true) {c : Char} (hc : c.isDigit = false) : c ∉ s := fun m => by
  rw [h c m] at hc; cases hc

theorem vlan_reads {v : Vlan} (h : VlanOk v) : ReadsVlan (vlanText v) v := by
  cases v with
  | one v => exact .one h
  | range a b => exact .range h.1 h.2

theorem vlan_not_mem {s : List Char} {v : Vlan} (h : ReadsVlan s v) : ',' ∉ s := by
  cases h with
  | one h => exact digits_not_mem h rfl
  | range h h' => simp [digits_not_mem h (c := ',') rfl, digits_not_mem h' (c := ',') rfl]

theorem vlan_unique {s s' : List Char} {v w : Vlan} (h : ReadsVlan s v) (h' : ReadsVlan s' w) (e : s = s') : v = w := by
  cases h with
  | one h =>
    cases h' with
    | one h' => rw [String.toList_inj.1 e]
    | range => exact absurd (e ▸ List.mem_append_right _ List.mem_cons_self) (digits_not_mem h (c := '-') rfl)
  | range h1 h2 =>
    cases h' with
    | one h' => exact absurd (e ▸ List.mem_append_right _ List.mem_cons_self) (digits_not_mem h' (c := '-') rfl)
    | range h1' h2' =>
      obtain ⟨e1, e2⟩ := first_sep (digits_not_mem h1 rfl) (digits_not_mem h1' rfl) e
      rw [String.toList_inj.1 e1, String.toList_inj.1 e2]

theorem vlans_reads {l : List Vlan} (h : VlansOk l) : ReadsVlans (vlansText l) l := by
  obtain ⟨hn, h⟩ := h
  induction l with
  | nil => exact absurd rfl hn
  | cons v l ih =>
    cases l with
    | nil => exact .one (vlan_reads (h v List.mem_cons_self))
    | cons w l => exact .more (vlan_reads (h v List.mem_cons_self)) (ih (by simp) fun x hx => h x (List.mem_cons_of_mem _ hx))

theorem vlans_unique {s s' : List Char} {l l' : List Vlan} (h : ReadsVlans s l) (h' : ReadsVlans s' l') (e : s = s') : l = l' := by
  induction h generalizing s' l' with
  | one h =>
    cases h' with
    | one h' => rw [vlan_unique h h' e]
    | more h' _ => exact absurd (e ▸ List.mem_append_right _ List.mem_cons_self) (vlan_not_mem h)
  | more h _ ih =>
    cases h' with
    | one h' => exact absurd (e ▸ List.mem_append_right _ List.mem_cons_self) (vlan_not_mem h')
    | more h' hl' =>
      obtain ⟨e1, e2⟩ := first_sep (vlan_not_mem h) (vlan_not_mem h') e
      rw [vlan_unique h h' e1, ih hl' e2]

theorem groupRow_iff (p : String × String × String) (x : String × String) :
    ReadsGroupRow ⟨p.1.toList, "access_group_" ++ p.2.1, p.2.1.toList⟩ x ↔ x = (p.1, p.2.1) := by
  constructor
  · rintro ⟨h1, -, h2⟩
    obtain ⟨a, b⟩ := x
    rw [String.toList_inj.1 h1, String.toList_inj.1 h2]
  · rintro rfl
    exact ⟨rfl, rfl, rfl⟩

theorem maybe_text (o m : Option String) : Maybe (fun a n => a = n.toList) (o.map String.toList) m ↔ m = o := by
  constructor
  · intro h
    cases o with
    | none => cases h; rfl
    | some o => cases h with | some h => rw [String.toList_inj.1 h]
  · rintro rfl
    cases m with
    | none => exact .none
    | some m => exact .some rfl

theorem nonEmpty_iff {o : Option String} {n : String} : nonEmpty o = some n ↔ o = some n ∧ n ≠ "" := by
  cases o with
  | none => simp [nonEmpty]
  | some s =>
    by_cases h : s = ""
    · simp only [nonEmpty, Option.bind_some, h, if_true, reduceCtorEq, Option.some.injEq, false_iff]
      rintro ⟨rfl, h⟩
      exact h rfl
    · simp only [nonEmpty, Option.bind_some, h, if_false, Option.some.injEq]
      exact ⟨fun e => ⟨e, e ▸ h⟩, fun e => e.1⟩

theorem each_map_eq {α β : Type} (f : α → β) (l : List α) (m : List β) : Each (fun a b => b = f a) l m ↔ m = l.map f := by
  induction l generalizing m with
  | nil => constructor
           · intro h; cases h; rfl
           · rintro rfl; exact .nil
  | cons a l ih =>
    constructor
    · intro h
      cases h with
      | cons h1 h2 => rw [h1, (ih _).1 h2, List.map_cons]
    · rintro rfl
      exact .cons rfl ((ih _).2 rfl)

theorem maybe_trunk {o m : Option (List Vlan)} (h : ∀ l, o = some l → VlansOk l) : Maybe ReadsVlans (o.map vlansText) m ↔ m = o := by
  constructor
  · intro e
    cases o with
    | none => cases e; rfl
    | some l => cases e with | some e => rw [vlans_unique (vlans_reads (h l rfl)) e rfl]
  · rintro rfl
    cases m with
    | none => exact .none
    | some l => exact .some (vlans_reads (h l rfl))

/-- **C123.** The section of an interface with valid addresses and VLANs is read as exactly that interface. -/
theorem C123_section {i : Intf} (hi : IntfOk i) (x : IfaceShown) : ReadsIface (ifaceSection i) x ↔ IfaceIs i x := by
  have hn : ∀ m, m = nonEmpty i.nameif ↔ ∀ n, m = some n ↔ i.nameif = some n ∧ n ≠ "" := by
    intro m
    constructor
    · rintro rfl n
      exact nonEmpty_iff
    · intro h
      apply Option.ext
      intro n
      rw [h n]
      exact nonEmpty_iff.symm
  have ha : Each ReadsIfAddr (i.addresses.map ifAddrText) x.addresses ↔ x.addresses = i.addresses.map fun p => (p.1, p.2.plen) :=
    (each_iff (S := fun p y => y = (p.1, p.2.plen)) (fun p hp y => ifAddr_iff (hi.addresses p hp) y) _).trans (each_map_eq _ _ _)
  have hg : Each ReadsGroupRow (i.accessGroups.map fun x => ⟨x.1.toList, "access_group_" ++ x.2.1, x.2.1.toList⟩) x.groups ↔ x.groups = i.accessGroups.map fun p => (p.1, p.2.1) :=
    (each_iff (S := fun p y => y = (p.1, p.2.1)) (fun p _ y => groupRow_iff p y) _).trans (each_map_eq _ _ _)
  have ht : Maybe ReadsVlans (i.switchport.bind fun s => s.trunk.map vlansText) x.trunk ↔ x.trunk = i.switchport.bind (·.trunk) := by
    have e : (i.switchport.bind fun s => s.trunk.map vlansText) = (i.switchport.bind (·.trunk)).map vlansText := by cases i.switchport <;> rfl
    rw [e]
    refine maybe_trunk fun l hl => ?_
    obtain ⟨s, h1, h2⟩ := Option.bind_eq_some_iff.1 hl
    exact hi.trunk s l h1 h2
  have hm : Maybe (fun a n => a = n.toList) (i.switchport.map fun s => s.mode.toList) x.mode ↔ x.mode = i.switchport.map (·.mode) := by
    have e : (i.switchport.map fun s => s.mode.toList) = (i.switchport.map (·.mode)).map String.toList := by cases i.switchport <;> rfl
    rw [e]
    exact maybe_text _ _
  constructor
  · intro h
    exact ⟨(String.toList_inj.1 h.heading).symm, (hn _).1 ((maybe_text _ _).1 h.nameif), (String.toList_inj.1 h.description).symm, ha.1 h.addresses, hm.1 h.mode, ht.1 h.trunk, hg.1 h.groups⟩
  · intro h
    have e := (hn _).2 h.nameif
    refine ⟨by rw [h.alias]; rfl, ?_, by rw [h.alias]; rfl, by rw [h.description]; rfl, ha.2 h.addresses, hm.2 h.mode, ht.2 h.trunk, hg.2 h.groups, (maybe_text _ _).2 e⟩
    change Maybe _ ((nonEmpty i.nameif).map _) _
    rw [← e]
    cases hx : x.nameif with
    | none => exact .none
    | some n => exact .some ⟨rfl, ((h.nameif n).1 hx).2⟩

/-- What the interface is shown as. -/
def shownIface (i : Intf) : IfaceShown :=
  ⟨i.alias, nonEmpty i.nameif, i.description.getD "", i.addresses.map fun p => (p.1, p.2.plen), i.switchport.map (·.mode), i.switchport.bind (·.trunk), i.accessGroups.map fun p => (p.1, p.2.1)⟩

theorem shownIface_is (i : Intf) : IfaceIs i (shownIface i) := ⟨rfl, fun _ => nonEmpty_iff, rfl, rfl, rfl, rfl, rfl⟩

/-- **C123, FWSM/ASA texts.** Whatever text is accepted, the section of every interface can be read, and only as exactly that interface. -/
theorem C123_fwsm (g : Lookup.Guard) (t u : List Char) (items : List FwsmText.Item) (h : FwsmText.parseFile g t = .ok items u) (i : Intf) (hi : FwsmText.Item.iface i ∈ items) :
    (∀ x, ReadsIface (ifaceSection i) x ↔ IfaceIs i x) ∧ ∃ x, ReadsIface (ifaceSection i) x := by
  have := C123_section (FwsmText.parseFile_ifaces h _ hi : IntfOk i)
  exact ⟨this, _, (this _).2 (shownIface_is i)⟩

/-- **C123, IOS texts.** The same, with the switch ports. -/
theorem C123_ios (g : Lookup.Guard) (t u : List Char) (items : List IosText.Item) (h : IosText.parseFile g t = .ok items u) (i : Intf) (hi : IosText.Item.base (.iface i) ∈ items) :
    (∀ x, ReadsIface (ifaceSection i) x ↔ IfaceIs i x) ∧ ∃ x, ReadsIface (ifaceSection i) x := by
  have := C123_section (IosText.parseFile_ifaces h _ hi : IntfOk i)
  exact ⟨this, _, (this _).2 (shownIface_is i)⟩

/-- Equal sections, also of different texts, are of interfaces with the same alias, addresses and prefix lengths, VLANs and access groups. -/
theorem C123_equal_sections (g g' : Lookup.Guard) (t u t' u' : List Char) (items items' : List IosText.Item) (h : IosText.parseFile g t = .ok items u) (h' : IosText.parseFile g' t' = .ok items' u')
    (i i' : Intf) (hi : IosText.Item.base (.iface i) ∈ items) (hi' : IosText.Item.base (.iface i') ∈ items') (e : ifaceSection i = ifaceSection i') :
    i.alias = i'.alias ∧ i.addresses.map (fun p => (p.1, p.2.plen)) = i'.addresses.map (fun p => (p.1, p.2.plen)) ∧ i.switchport = i'.switchport ∧
      i.accessGroups.map (fun p => (p.1, p.2.1)) = i'.accessGroups.map fun p => (p.1, p.2.1) := by
  obtain ⟨x, hx⟩ := (C123_ios g t u items h i hi).2
  have h1 := ((C123_ios g t u items h i hi).1 x).1 hx
  rw [e] at hx
  have h2 := ((C123_ios g' t' u' items' h' i' hi').1 x).1 hx
  refine ⟨h1.alias.symm.trans h2.alias, h1.addresses.symm.trans h2.addresses, ?_, h1.groups.symm.trans h2.groups⟩
  have em := h1.mode.symm.trans h2.mode
  have et := h1.trunk.symm.trans h2.trunk
  cases hs : i.switchport with
  | none =>
    cases hs' : i'.switchport with
    | none => rfl
    | some s' => rw [hs, hs'] at em; cases em
  | some s =>
    cases hs' : i'.switchport with
    | none => rw [hs, hs'] at em; cases em
    | some s' =>
      rw [hs, hs'] at em et
      obtain ⟨m, t⟩ := s
      obtain ⟨m', t'⟩ := s'
      obtain rfl : m = m' := Option.some.inj em
      obtain rfl : t = t' := et
      rfl

/-- The sections of the interfaces of an IOS text that is accepted. -/
def ifaceSections (t : String) : List IfaceSection :=
  match IosText.parseFile Lookup.tatsuGuard t.toList with
  | .ok l _ => l.filterMap fun | .base (.iface i) => some (ifaceSection i) | _ => none
  | _ => []

/-- The hypotheses are met: addresses, a list of VLANs and an access group. -/
theorem C123_sample :
    ifaceSections "interface Vlan1\n description the lan\n ip address 10.0.0.1 255.255.255.0\n ip access-group acl in\ninterface Gi1\n switchport mode trunk\n switchport trunk allowed vlan 1,10-20\n switchport trunk allowed vlan add 30\n" =
      [⟨"interface_Vlan1", none, "Vlan1".toList, "the lan".toList, ["10.0.0.1/24".toList], none, none, [⟨"ip-in".toList, "access_group_acl", "acl".toList⟩], none⟩,
       ⟨"interface_Gi1", none, "Gi1".toList, [], [], some "trunk".toList, some "1,10-20,30".toList, [], none⟩] := by
  decide +kernel

end Acltk.Cells
