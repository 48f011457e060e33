import Verif.Props.FwsmPage
/-!
# C108: every accepted FWSM text has such objects
-/
namespace Acltk.Page
open Acltk Acltk.Resolve Acltk.FwsmText

/-- The interface a host is. -/
def hostWord : Host → List String
  | .iface n => [n]
  | _ => []

/-- The names of interfaces and protocols in an element. -/
def itemWords (i : FwsmText.Item) : List String :=
  (hostsOf i).flatMap hostWord ++
  match i with
  | .rule r => match r.protocol with | .name n => [n] | _ => []
  | .protoGroup _ _ l _ => l.flatMap fun | .protocol n => [n] | _ => []
  | .nat x => [x.real.iface, x.mapped.iface]
  | .netObj _ _ (some x) _ => [x.real.iface, x.mapped.iface]
  | _ => []

section
variable (items : List FwsmText.Item)

def words : List String := items.flatMap itemWords

def otherEl : El := .obj (2 * items.length)
def addrEl : El := .obj (2 * items.length + 1)
def ifEl (n : String) : El := .obj (2 * items.length + (2 + 2 * (words items).idxOf n))
def protoEl (n : String) : El := .obj (2 * items.length + (3 + 2 * (words items).idxOf n))

/-- The objects without a name of their own. -/
def partObj : Nat → Obj
  | 0 => .other
  | 1 => .address none
  | j + 2 =>
    match (words items)[j / 2]? with
    | some n => if j % 2 = 0 then .netInterface n else .protocol n
    | none => .other

open Classical in
noncomputable def hostEl (k : Nat) : Host → El
  | .obj n _ => if c : ∃ p, FirstAt netObjDef items k n p then .obj (objOid items c.choose) else .none
  | .group n _ => if c : ∃ p, LastAt netGroupDef items k n p then .obj c.choose else .none
  | .iface n => ifEl items n
  | .net _ | .host _ => addrEl items
  | _ => otherEl items

open Classical in
noncomputable def idTo (o : Nat) : El :=
  if c : ∃ p : Nat, ∃ i, items[p]? = some i ∧ identOf i = some o then .obj c.choose else .none

noncomputable def portEl : Option AclText.PortVal → El
  | none => .none
  | some (.group o) => idTo items o
  | some _ => otherEl items

noncomputable def protocolEl : AclText.Proto → El
  | .name n => protoEl items n
  | .svcGroup o => idTo items o
  | .protoGroup o => idTo items o
  | .svcObj o => idTo items o

noncomputable def icmpEl : Option AclText.IcmpVal → Option El
  | none => none
  | some (.group o) => some (idTo items o)
  | some (.icmp _ _) => some (otherEl items)

noncomputable def nodeEl (k : Nat) : Option NatCmd.Node' → Option El
  | none => none
  | some .interface => some (.str "interface")
  | some (.host h) => some (hostEl items k h)

open Classical in
noncomputable def serviceEl (k : Nat) : Option NatCmd.Svc → El
  | none => .none
  | some v =>
    match v.name with
    | some n => if c : ∃ p, FirstAt svcDef items k n p then .obj c.choose else .none
    | none => otherEl items

noncomputable def portMemberEl : PortMember → El
  | .group o => idTo items o
  | _ => otherEl items

noncomputable def svcMemberEl : SvcMember → El
  | .group o => idTo items o
  | .obj o => idTo items o
  | .svc _ => otherEl items

noncomputable def icmpMemberEl : IcmpMember → El
  | .group o => idTo items o
  | .icmp _ => otherEl items

noncomputable def protoMemberEl : ProtoMember → El
  | .group o => idTo items o
  | .protocol n => protoEl items n

noncomputable def itemObj (k : Nat) : FwsmText.Item → Obj
  | .iface i => .interface i.nameif
  | .name h _ _ => .name h
  | .timeRange _ n _ => .timeRange n
  | .netObj n l none _ => .netObject n (l.map fun _ => addrEl items)
  | .netObj _ _ (some x) _ =>
    .nat ⟨some (.obj (items.length + k)), nodeEl items k x.real.dst, ifEl items x.real.iface, .none⟩
      ⟨nodeEl items k x.mapped.src, nodeEl items k x.mapped.dst, ifEl items x.mapped.iface, .none⟩
  | .svcObj _ n _ _ => .svcObject n
  | .netGroup n l _ => .group .network n (l.map (hostEl items k))
  | .portGroup _ n _ l _ => .group .port n (l.map (portMemberEl items))
  | .svcGroup _ n l _ => .group .service n (l.map (svcMemberEl items))
  | .icmpGroup _ n l _ => .group .icmp n (l.map (icmpMemberEl items))
  | .protoGroup _ n l _ => .group .protocol n (l.map (protoMemberEl items))
  | .rule r => .rule (some r.id) (protocolEl items r.protocol) (hostEl items k r.src.host) (portEl items r.src.port) (hostEl items k r.dst.host)
      (portEl items r.dst.port) (icmpEl items r.icmp) ((rangesOf r).map (idTo items))
  | .nat x =>
    .nat ⟨nodeEl items k x.real.src, nodeEl items k x.real.dst, ifEl items x.real.iface, serviceEl items k x.real.service⟩
      ⟨nodeEl items k x.mapped.src, nodeEl items k x.mapped.dst, ifEl items x.mapped.iface, serviceEl items k x.mapped.service⟩
  | _ => .other

/-- The network object of a block with a NAT line. -/
def blockObj : Option FwsmText.Item → Obj
  | some (.netObj n l (some _) _) => .netObject n (l.map fun _ => addrEl items)
  | _ => .other

/-- Objects of a text. -/
noncomputable def objsOf (o : Oid) : Obj :=
  match items[o]? with
  | some i => itemObj items o i
  | none => if o < 2 * items.length then blockObj items items[o - items.length]? else partObj items (o - 2 * items.length)

end

section
variable {items : List FwsmText.Item}

theorem objsOf_item {k : Nat} {i : FwsmText.Item} (h : items[k]? = some i) : objsOf items k = itemObj items k i := by
  unfold objsOf; rw [h]

theorem objsOf_block {k : Nat} (h : k < items.length) : objsOf items (items.length + k) = blockObj items items[k]? := by
  have h0 : items[items.length + k]? = none := List.getElem?_eq_none (by omega)
  unfold objsOf
  rw [h0]
  simp only
  rw [if_pos (by show items.length + k < 2 * items.length; omega), Nat.add_sub_cancel_left]

theorem objsOf_part (j : Nat) : objsOf items (2 * items.length + j) = partObj items j := by
  have h0 : items[2 * items.length + j]? = none := List.getElem?_eq_none (by omega)
  unfold objsOf
  rw [h0]
  simp only
  rw [if_neg (by show ¬ (2 * items.length + j < 2 * items.length); omega), Nat.add_sub_cancel_left]

theorem part_other : Part items (objsOf items) (otherEl items) (· = .other) :=
  ⟨_, rfl, Nat.le_refl _, objsOf_part (items := items) 0⟩

theorem part_addr : objsOf items (2 * items.length + 1) = .address none := objsOf_part 1

theorem words_get {n : String} (h : n ∈ words items) : (words items)[(words items).idxOf n]? = some n := by
  have hlt : (words items).idxOf n < (words items).length := List.idxOf_lt_length_of_mem h
  rw [List.getElem?_eq_getElem hlt, List.getElem_idxOf hlt]

theorem part_iface {n : String} (h : n ∈ words items) : Part items (objsOf items) (ifEl items n) (· = .netInterface n) := by
  refine ⟨_, rfl, Nat.le_add_right _ _, ?_⟩
  rw [objsOf_part, Nat.add_comm 2]
  unfold partObj
  simp only
  rw [Nat.mul_div_cancel_left _ (by decide), words_get h]
  simp

theorem part_proto {n : String} (h : n ∈ words items) : Part items (objsOf items) (protoEl items n) (· = .protocol n) := by
  refine ⟨_, rfl, Nat.le_add_right _ _, ?_⟩
  rw [objsOf_part, show 3 + 2 * (words items).idxOf n = (2 * (words items).idxOf n + 1) + 2 by omega]
  unfold partObj
  simp only
  rw [show (2 * (words items).idxOf n + 1) / 2 = (words items).idxOf n by omega, words_get h]
  simp only
  rw [if_neg (by omega)]

theorem firstAt_unique {α : Type} {f : FwsmText.Item → Option (String × α)} {k : Nat} {n : String} {p q : Nat} (hp : FirstAt f items k n p)
    (hq : FirstAt f items k n q) : p = q := by
  obtain ⟨-, ⟨i, v, h1, h2⟩, h3⟩ := hp
  obtain ⟨-, ⟨j, w, h4, h5⟩, h6⟩ := hq
  rcases Nat.lt_trichotomy p q with h | h | h
  · exact absurd h2 (h6 p i v h h1)
  · exact h
  · exact absurd h5 (h3 q j w h h4)

theorem lastAt_unique {α : Type} {f : FwsmText.Item → Option (String × α)} {k : Nat} {n : String} {p q : Nat} (hp : LastAt f items k n p)
    (hq : LastAt f items k n q) : p = q := by
  obtain ⟨hk, ⟨i, v, h1, h2⟩, h3⟩ := hp
  obtain ⟨hk', ⟨j, w, h4, h5⟩, h6⟩ := hq
  rcases Nat.lt_trichotomy p q with h | h | h
  · exact absurd h5 (h3 q j w h hk' h4)
  · exact h
  · exact absurd h2 (h6 p i v h hk h1)

theorem ident_unique : ∀ {l : List FwsmText.Item}, (l.filterMap identOf).Nodup → ∀ {p q : Nat} {i j : FwsmText.Item} {o : Nat}, l[p]? = some i → l[q]? = some j →
    identOf i = some o → identOf j = some o → p = q := by
  intro l
  induction l with
  | nil => intro _ p q i j o h; simp at h
  | cons a t ih =>
    intro hn p q i j o h1 h2 h3 h4
    have hmem : ∀ {r : Nat} {b : FwsmText.Item}, t[r]? = some b → identOf b = some o → o ∈ t.filterMap identOf :=
      fun hb he => List.mem_filterMap.2 ⟨_, List.mem_iff_getElem?.2 ⟨_, hb⟩, he⟩
    have ht : (t.filterMap identOf).Nodup := by
      rw [List.filterMap_cons] at hn
      split at hn
      · exact hn
      · exact (List.nodup_cons.1 hn).2
    have hfirst : identOf a = some o → o ∉ t.filterMap identOf := by
      intro ha
      rw [List.filterMap_cons, ha] at hn
      exact (List.nodup_cons.1 hn).1
    cases p with
    | zero =>
      cases q with
      | zero => rfl
      | succ q =>
        simp only [List.getElem?_cons_zero, Option.some.injEq] at h1
        subst h1
        exact absurd (hmem (by simpa using h2) h4) (hfirst h3)
    | succ p =>
      cases q with
      | zero =>
        simp only [List.getElem?_cons_zero, Option.some.injEq] at h2
        subst h2
        exact absurd (hmem (by simpa using h1) h3) (hfirst h4)
      | succ q =>
        have := ih ht (p := p) (q := q) (by simpa using h1) (by simpa using h2) h3 h4
        rw [this]

theorem idTo_at (hn : (items.filterMap identOf).Nodup) (o : Nat) : IdAt items o (idTo items o) := by
  intro p i h1 h2
  have c : ∃ p : Nat, ∃ i, items[p]? = some i ∧ identOf i = some o := ⟨p, i, h1, h2⟩
  unfold idTo
  rw [dif_pos c]
  obtain ⟨j, h3, h4⟩ := c.choose_spec
  rw [ident_unique hn h3 h1 h4 h2]

theorem mem_words {k : Nat} {i : FwsmText.Item} (h : items[k]? = some i) {n : String} (hn : n ∈ itemWords i) : n ∈ words items :=
  List.mem_flatMap.2 ⟨i, List.mem_iff_getElem?.2 ⟨k, h⟩, hn⟩

theorem hostEl_at {k : Nat} (h : Host) (hw : ∀ n ∈ hostWord h, n ∈ words items) : HostAt (objsOf items) items k h (hostEl items k h) := by
  cases h with
  | obj n l =>
    intro p hp
    have c : ∃ p, FirstAt netObjDef items k n p := ⟨p, hp⟩
    unfold hostEl
    simp only
    rw [dif_pos c, firstAt_unique c.choose_spec hp]
  | group n l =>
    intro p hp
    have c : ∃ p, LastAt netGroupDef items k n p := ⟨p, hp⟩
    unfold hostEl
    simp only
    rw [dif_pos c, lastAt_unique c.choose_spec hp]
  | iface n => exact part_iface (hw n (by simp [hostWord]))
  | net a => exact ⟨_, rfl, Nat.le_add_right _ _, none, part_addr⟩
  | host a => exact ⟨_, rfl, Nat.le_add_right _ _, none, part_addr⟩
  | _ => exact part_other

theorem each_map {α : Type} {R : α → El → Prop} {f : α → El} (l : List α) (h : ∀ x ∈ l, R x (f x)) : Each R l (l.map f) := by
  refine ⟨(List.length_map _).symm, ?_⟩
  intro j x e h1 h2
  rw [List.getElem?_map, h1] at h2
  cases h2
  exact h x (List.mem_iff_getElem?.2 ⟨j, h1⟩)

theorem addresses_at (l : List Host) : Addresses (objsOf items) items l (l.map fun _ => addrEl items) :=
  each_map l fun _ _ => ⟨_, rfl, Nat.le_add_right _ _, Or.inl part_addr⟩

theorem nodeEl_at {k : Nat} {i : FwsmText.Item} (hi : items[k]? = some i) (v : Option NatCmd.Node') (hv : ∀ h, v = some (.host h) → h ∈ hostsOf i) :
    NodeAt (objsOf items) items k v (nodeEl items k v) := by
  rcases v with _ | ⟨h | _⟩
  · rfl
  · refine ⟨_, rfl, hostEl_at h fun n hn => mem_words hi ?_⟩
    exact List.mem_append_left _ (List.mem_flatMap.2 ⟨h, hv h rfl, hn⟩)
  · rfl

theorem serviceEl_at {k : Nat} (v : Option NatCmd.Svc) : ServiceAt (objsOf items) items k v (serviceEl items k v) := by
  rcases v with _ | v
  · rfl
  · unfold ServiceAt serviceEl
    simp only
    cases hv : v.name with
    | none => exact part_other
    | some n =>
      intro p hp
      have c : ∃ p, FirstAt svcDef items k n p := ⟨p, hp⟩
      simp only
      rw [dif_pos c, firstAt_unique c.choose_spec hp]

theorem portEl_at (hn : (items.filterMap identOf).Nodup) (v : Option AclText.PortVal) : PortAt (objsOf items) items v (portEl items v) := by
  rcases v with _ | ⟨_ | _ | o | _⟩
  · rfl
  · exact part_other
  · exact part_other
  · exact idTo_at hn o
  · exact part_other

/-- **C108, the hypothesis on the objects.** Whatever FWSM text is accepted, there are objects as `ObjectsOf` describes them. -/
theorem C108_objects {g : Lookup.Guard} {t r : List Char} {items : List FwsmText.Item} (h : parseFile g t = .ok items r) : ObjectsOf (objsOf items) items := by
  have hn := C107_identities h
  refine ⟨?_, ?_, ?_⟩
  · intro k i hi
    have ho := objsOf_item hi
    have hosts : ∀ x ∈ hostsOf i, HostAt (objsOf items) items k x (hostEl items k x) := fun x hx =>
      hostEl_at x fun n hn => mem_words hi (List.mem_append_left _ (List.mem_flatMap.2 ⟨x, hx, hn⟩))
    cases i with
    | netObj n l x d =>
      cases x with
      | none => exact ⟨_, ho, addresses_at l⟩
      | some x =>
        refine ⟨⟨_, ?_, addresses_at l⟩, _, _, ho, ⟨rfl, ?_, ?_, ?_, ?_, ?_, Or.inl rfl, Or.inl rfl⟩⟩
        · rw [objsOf_block (lt_of_get hi), hi]; rfl
        · exact nodeEl_at hi _ fun h e => by simp [hostsOf, nodeHosts, e]
        · exact nodeEl_at hi _ fun h e => by simp [hostsOf, nodeHosts, e]
        · exact nodeEl_at hi _ fun h e => by simp [hostsOf, nodeHosts, e]
        · exact part_iface (mem_words hi (by simp [itemWords]))
        · exact part_iface (mem_words hi (by simp [itemWords]))
    | netGroup n l d => exact ⟨_, ho, each_map l hosts⟩
    | portGroup o n p l d =>
      refine ⟨_, ho, each_map l fun x hx => ?_⟩
      cases x with
      | group o => exact idTo_at hn o
      | _ => exact part_other
    | svcGroup o n l d =>
      refine ⟨_, ho, each_map l fun x hx => ?_⟩
      cases x with
      | group o => exact idTo_at hn o
      | obj o => exact idTo_at hn o
      | svc _ => exact part_other
    | icmpGroup o n l d =>
      refine ⟨_, ho, each_map l fun x hx => ?_⟩
      cases x with
      | group o => exact idTo_at hn o
      | icmp _ => exact part_other
    | protoGroup o n l d =>
      refine ⟨_, ho, each_map l fun x hx => ?_⟩
      cases x with
      | group o => exact idTo_at hn o
      | protocol m =>
        refine part_proto (mem_words hi (List.mem_append_right _ ?_))
        exact List.mem_flatMap.2 ⟨_, hx, by simp⟩
    | rule pr =>
      refine ⟨_, _, _, _, _, _, _, ho, ?_, hosts _ (by simp [hostsOf]), portEl_at hn _, hosts _ (by simp [hostsOf]), portEl_at hn _, ?_,
        each_map _ fun o _ => idTo_at hn o⟩
      · cases hp : pr.protocol with
        | name n => exact part_proto (mem_words hi (by simp [itemWords, hp]))
        | svcGroup o => exact idTo_at hn o
        | protoGroup o => exact idTo_at hn o
        | svcObj o => exact idTo_at hn o
      · rcases pr.icmp with _ | ⟨_ | o⟩
        · rfl
        · exact ⟨_, rfl, part_other⟩
        · exact ⟨_, rfl, idTo_at hn o⟩
    | nat x =>
      refine ⟨_, _, ho, ⟨?_, ?_, ?_, ?_, ?_, ?_, serviceEl_at _, serviceEl_at _⟩⟩
      · exact nodeEl_at hi _ fun h e => by simp [hostsOf, nodeHosts, e]
      · exact nodeEl_at hi _ fun h e => by simp [hostsOf, nodeHosts, e]
      · exact nodeEl_at hi _ fun h e => by simp [hostsOf, nodeHosts, e]
      · exact nodeEl_at hi _ fun h e => by simp [hostsOf, nodeHosts, e]
      · exact part_iface (mem_words hi (by simp [itemWords]))
      · exact part_iface (mem_words hi (by simp [itemWords]))
    | _ => exact ho
  · intro o ho hno
    by_cases h2 : o < 2 * items.length
    · obtain ⟨k, rfl⟩ := Nat.exists_eq_add_of_le ho
      have hk : k < items.length := by
        have : items.length + k < 2 * items.length := h2
        omega
      left
      rw [objsOf_block hk]
      unfold blockObj
      split
      · rename_i e
        exact absurd rfl (hno k _ _ _ _ e)
      · rfl
    · obtain ⟨j, rfl⟩ := Nat.exists_eq_add_of_le (Nat.le_of_not_lt h2)
      unfold IsPart
      rw [objsOf_part]
      unfold partObj
      split
      · exact Or.inl rfl
      · exact Or.inr (Or.inr (Or.inr ⟨none, rfl, by intro q hq; cases hq⟩))
      · split
        · split
          · exact Or.inr (Or.inl ⟨_, rfl⟩)
          · exact Or.inr (Or.inr (Or.inl ⟨_, rfl⟩))
        · exact Or.inl rfl
  · refine ⟨List.range (2 * items.length + (2 * (words items).length + 4)), fun o hne => ?_⟩
    rw [List.mem_range]
    refine Classical.byContradiction fun hlt => hne ?_
    obtain ⟨j, rfl⟩ := Nat.exists_eq_add_of_le (show 2 * items.length ≤ o by
      have : ¬ (o < 2 * items.length + (2 * (words items).length + 4)) := hlt
      exact Nat.le_trans (Nat.le_add_right _ _) (Nat.le_of_not_lt this))
    have hj : 2 * (words items).length + 4 ≤ j := by
      have : ¬ (2 * items.length + j < 2 * items.length + (2 * (words items).length + 4)) := hlt
      omega
    rw [objsOf_part]
    match j, hj with
    | j + 2, hj =>
      unfold partObj
      simp only
      rw [List.getElem?_eq_none (by omega)]

end

end Acltk.Page
