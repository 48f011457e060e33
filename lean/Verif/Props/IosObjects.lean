import Verif.Props.IosPage
import Verif.Props.FwsmObjects
/-!
# C113: every accepted IOS text has such objects
-/
namespace Acltk.IosPage
open Acltk Acltk.Resolve
open Acltk.Page (Obj hostWord)
open Acltk.Page hiding Item Part HostAt IdAt PortAt ProtoAt IcmpAt PortMemberAt SvcMemberAt IcmpMemberAt ProtoMemberAt ItemAt ObjectsOf Kept RefersTo Live Settled Once
  itemWords words otherEl addrEl ifEl protoEl partObj hostEl idTo portEl protocolEl icmpEl portMemberEl svcMemberEl icmpMemberEl protoMemberEl itemObj objsOf objsOf_item
  objsOf_part part_other part_addr words_get part_iface part_proto idTo_at mem_words hostEl_at portEl_at
open Acltk.FwsmText (netGroupDef idDef identOf PortMember SvcMember IcmpMember ProtoMember)
open Acltk.IosText (Item IRule rulesOf defs hostsOf idsOf itemRules parseFile)

/-- The names of interfaces and protocols in an element. -/
def itemWords (i : Item) : List String :=
  (hostsOf i).flatMap hostWord ++ ((itemRules i).flatMap fun r => match r.protocol with | .name n => [n] | _ => []) ++
  match i with
  | .base (.protoGroup _ _ l _) => l.flatMap fun | .protocol n => [n] | _ => []
  | _ => []

section
variable (items : List Item)

def words : List String := items.flatMap itemWords

def otherEl : El := .obj (size items)
def addrEl : El := .obj (size items + 1)
def ifEl (n : String) : El := .obj (size items + (2 + 2 * (words items).idxOf n))
def protoEl (n : String) : El := .obj (size items + (3 + 2 * (words items).idxOf n))

/-- The objects without a name of their own. -/
def partObj : Nat → Obj
  | 0 => .other
  | 1 => .address none
  | j + 2 =>
    match (words items)[j / 2]? with
    | some n => if j % 2 = 0 then .netInterface n else .protocol n
    | none => .other

open Classical in
noncomputable def hostEl (k : Nat) : Host → El
  | .group n _ => if c : ∃ p, LastAt netGroupDef (defs items) k n p then .obj (oid items c.choose) else .none
  | .iface n => ifEl items n
  | .net _ | .host _ => addrEl items
  | _ => otherEl items

open Classical in
noncomputable def idTo (o : Nat) : El :=
  if c : ∃ p : Nat, ∃ i, (defs items)[p]? = some i ∧ identOf i = some o then .obj (oid items c.choose) else .none

noncomputable def portEl : Option AclText.PortVal → El
  | none => .none
  | some (.group o) => idTo items o
  | some _ => otherEl items

noncomputable def protocolEl : AclText.Proto → El
  | .name n => protoEl items n
  | .svcGroup o => idTo items o
  | .protoGroup o => idTo items o
  | .svcObj o => idTo items o

noncomputable def icmpEl : Option AclText.IcmpVal → Option El
  | none => none
  | some (.group o) => some (idTo items o)
  | some (.icmp _ _) => some (otherEl items)

noncomputable def portMemberEl : PortMember → El
  | .group o => idTo items o
  | _ => otherEl items

noncomputable def svcMemberEl : SvcMember → El
  | .group o => idTo items o
  | .obj o => idTo items o
  | .svc _ => otherEl items

noncomputable def icmpMemberEl : IcmpMember → El
  | .group o => idTo items o
  | .icmp _ => otherEl items

noncomputable def protoMemberEl : ProtoMember → El
  | .group o => idTo items o
  | .protocol n => protoEl items n

noncomputable def itemObj (k : Nat) : Item → Obj
  | .base (.iface i) => .interface i.nameif
  | .base (.netGroup n l _) => .group .network n (l.map (hostEl items k))
  | .base (.portGroup _ n _ l _) => .group .port n (l.map (portMemberEl items))
  | .base (.svcGroup _ n l _) => .group .service n (l.map (svcMemberEl items))
  | .base (.icmpGroup _ n l _) => .group .icmp n (l.map (icmpMemberEl items))
  | .base (.protoGroup _ n l _) => .group .protocol n (l.map (protoMemberEl items))
  | _ => .other

open Classical in
/-- The object of the rule number `j`. -/
noncomputable def ruleObj (j : Nat) (r : IRule) : Obj :=
  if c : ∃ k, InElement items j k then
    .rule (some r.id) (protocolEl items r.protocol) (hostEl items c.choose r.src.host) (portEl items r.src.port) (hostEl items c.choose r.dst.host)
      (portEl items r.dst.port) (icmpEl items r.icmp) []
  else .other

/-- Objects of a text. -/
noncomputable def objsOf (o : Oid) : Obj :=
  match (rulesOf items)[o]? with
  | some r => ruleObj items o r
  | none =>
    match items[o - (rulesOf items).length]? with
    | some i => itemObj items (o - (rulesOf items).length) i
    | none => partObj items (o - size items)

end

section
variable {items : List Item}

theorem objsOf_rule {j : Nat} {r : IRule} (h : (rulesOf items)[j]? = some r) : objsOf items j = ruleObj items j r := by
  unfold objsOf; rw [h]

theorem objsOf_item {p : Nat} {i : Item} (h : items[p]? = some i) : objsOf items (oid items p) = itemObj items p i := by
  have h0 : (rulesOf items)[oid items p]? = none := List.getElem?_eq_none (Nat.le_add_right _ _)
  unfold objsOf
  rw [h0]
  simp only
  rw [show oid items p - (rulesOf items).length = p from Nat.add_sub_cancel_left .., h]

theorem objsOf_part (j : Nat) : objsOf items (size items + j) = partObj items j := by
  have e : size items + j - (rulesOf items).length = items.length + j := by
    show (rulesOf items).length + items.length + j - (rulesOf items).length = items.length + j
    omega
  have h0 : (rulesOf items)[size items + j]? = none := List.getElem?_eq_none (Nat.le_trans (le_size items) (Nat.le_add_right _ _))
  have h1 : items[items.length + j]? = none := List.getElem?_eq_none (Nat.le_add_right _ _)
  unfold objsOf
  rw [h0]
  simp only
  rw [e, h1]
  simp only
  rw [Nat.add_sub_cancel_left]

theorem part_other : Part (objsOf items) items (otherEl items) (· = .other) :=
  ⟨_, rfl, Nat.le_refl _, objsOf_part (items := items) 0⟩

theorem part_addr : Part (objsOf items) items (addrEl items) (· = .address none) := ⟨_, rfl, Nat.le_add_right _ _, objsOf_part 1⟩

theorem words_get {n : String} (h : n ∈ words items) : (words items)[(words items).idxOf n]? = some n := by
  have hlt : (words items).idxOf n < (words items).length := List.idxOf_lt_length_of_mem h
  rw [List.getElem?_eq_getElem hlt, List.getElem_idxOf hlt]

theorem part_iface {n : String} (h : n ∈ words items) : Part (objsOf items) items (ifEl items n) (· = .netInterface n) := by
  refine ⟨_, rfl, Nat.le_add_right _ _, ?_⟩
  rw [objsOf_part, Nat.add_comm 2]
  unfold partObj
  simp only
  rw [Nat.mul_div_cancel_left _ (by decide), words_get h]
  simp

theorem part_proto {n : String} (h : n ∈ words items) : Part (objsOf items) items (protoEl items n) (· = .protocol n) := by
  refine ⟨_, rfl, Nat.le_add_right _ _, ?_⟩
  rw [objsOf_part, show 3 + 2 * (words items).idxOf n = (2 * (words items).idxOf n + 1) + 2 by omega]
  unfold partObj
  simp only
  rw [show (2 * (words items).idxOf n + 1) / 2 = (words items).idxOf n by omega, words_get h]
  simp only
  rw [if_neg (by omega)]

theorem idTo_at (hn : ((defs items).filterMap identOf).Nodup) (o : Nat) : IdAt items o (idTo items o) := by
  intro p i h1 h2
  have c : ∃ p : Nat, ∃ i, (defs items)[p]? = some i ∧ identOf i = some o := ⟨p, i, h1, h2⟩
  unfold idTo
  rw [dif_pos c]
  obtain ⟨j, h3, h4⟩ := c.choose_spec
  rw [ident_unique hn h3 h1 h4 h2]

theorem mem_words {k : Nat} {i : Item} (h : items[k]? = some i) {n : String} (hn : n ∈ itemWords i) : n ∈ words items :=
  List.mem_flatMap.2 ⟨i, List.mem_iff_getElem?.2 ⟨k, h⟩, hn⟩

theorem hostEl_at {k : Nat} (h : Host) (hw : ∀ n ∈ hostWord h, n ∈ words items) : HostAt (objsOf items) items k h (hostEl items k h) := by
  cases h with
  | group n l =>
    intro p hp
    have c : ∃ p, LastAt netGroupDef (defs items) k n p := ⟨p, hp⟩
    unfold hostEl
    simp only
    rw [dif_pos c, lastAt_unique c.choose_spec hp]
  | iface n => exact part_iface (hw n (by simp [hostWord]))
  | net a => exact part_addr
  | host a => exact part_addr
  | _ => exact part_other

theorem portEl_at (hn : ((defs items).filterMap identOf).Nodup) (v : Option AclText.PortVal) : PortAt (objsOf items) items v (portEl items v) := by
  rcases v with _ | ⟨_ | _ | o | _⟩
  · rfl
  · exact part_other
  · exact part_other
  · exact idTo_at hn o
  · exact part_other

theorem rules_mono {a b : Nat} (h : a ≤ b) : (rulesOf (items.take a)).length ≤ (rulesOf (items.take b)).length := by
  obtain ⟨c, rfl⟩ := Nat.exists_eq_add_of_le h
  rw [rulesOf_eq, rulesOf_eq, List.take_add, List.flatMap_append, List.length_append]
  exact Nat.le_add_right _ _

theorem element_unique {j k l : Nat} (h1 : InElement items j k) (h2 : InElement items j l) : k = l := by
  have key : ∀ {k l : Nat}, InElement items j k → InElement items j l → ¬ k < l := by
    intro k l h1 h2 hlt
    exact absurd (Nat.lt_of_lt_of_le h1.2 (rules_mono (items := items) hlt)) (Nat.not_lt.2 h2.1)
  exact Nat.le_antisymm (Nat.le_of_not_lt (key h2 h1)) (Nat.le_of_not_lt (key h1 h2))

/-- **C113, the hypothesis on the objects.** Whatever IOS text is accepted, there are objects as `ObjectsOf` describes them. -/
theorem C113_objects {g : Lookup.Guard} {t r : List Char} {items : List Item} (h : parseFile g t = .ok items r) : ObjectsOf (objsOf items) items := by
  have hn := C112_identities h
  have hosts : ∀ {k : Nat} {i : Item}, items[k]? = some i → ∀ x ∈ hostsOf i, HostAt (objsOf items) items k x (hostEl items k x) := fun hi x hx =>
    hostEl_at x fun n hm => mem_words hi (List.mem_append_left _ (List.mem_append_left _ (List.mem_flatMap.2 ⟨x, hx, hm⟩)))
  refine ⟨?_, ?_, ?_, ?_⟩
  · intro j k pr hr hk
    obtain ⟨k', i, hi, hk', hmem⟩ := rule_element hr
    cases element_unique hk hk'
    have c : ∃ k, InElement items j k := ⟨k, hk⟩
    have hc : c.choose = k := element_unique c.choose_spec hk
    have ho := objsOf_rule hr
    unfold ruleObj at ho
    rw [dif_pos c, hc] at ho
    refine ⟨_, _, _, _, _, _, ho, ?_, hosts hi _ (rule_host hmem).1, portEl_at hn _, hosts hi _ (rule_host hmem).2, portEl_at hn _, ?_⟩
    · cases hp : pr.protocol with
      | name n =>
        refine part_proto (mem_words hi (List.mem_append_left _ (List.mem_append_right _ (List.mem_flatMap.2 ⟨pr, hmem, ?_⟩))))
        simp [hp]
      | svcGroup o => exact idTo_at hn o
      | protoGroup o => exact idTo_at hn o
      | svcObj o => exact idTo_at hn o
    · rcases pr.icmp with _ | ⟨_ | o⟩
      · rfl
      · exact ⟨_, rfl, part_other⟩
      · exact ⟨_, rfl, idTo_at hn o⟩
  · intro k i hi
    have ho := objsOf_item hi
    cases i with
    | base b =>
      cases b with
      | netGroup n l d => exact ⟨_, ho, each_map l fun x hx => hosts hi x (by simp [hostsOf, hx])⟩
      | portGroup o n p l d =>
        refine ⟨_, ho, each_map l fun x hx => ?_⟩
        cases x with
        | group o => exact idTo_at hn o
        | _ => exact part_other
      | svcGroup o n l d =>
        refine ⟨_, ho, each_map l fun x hx => ?_⟩
        cases x with
        | group o => exact idTo_at hn o
        | obj o => exact idTo_at hn o
        | svc _ => exact part_other
      | icmpGroup o n l d =>
        refine ⟨_, ho, each_map l fun x hx => ?_⟩
        cases x with
        | group o => exact idTo_at hn o
        | icmp _ => exact part_other
      | protoGroup o n l d =>
        refine ⟨_, ho, each_map l fun x hx => ?_⟩
        cases x with
        | group o => exact idTo_at hn o
        | protocol m =>
          refine part_proto (mem_words hi (List.mem_append_right _ ?_))
          exact List.mem_flatMap.2 ⟨_, hx, by simp⟩
      | _ => exact ho
    | _ => exact ho
  · intro o ho
    obtain ⟨j, rfl⟩ := Nat.exists_eq_add_of_le ho
    rw [objsOf_part]
    unfold partObj
    split
    · exact Or.inl rfl
    · exact Or.inr (Or.inl rfl)
    · split
      · split
        · exact Or.inr (Or.inr (Or.inl ⟨_, rfl⟩))
        · exact Or.inr (Or.inr (Or.inr ⟨_, rfl⟩))
      · exact Or.inl rfl
  · refine ⟨List.range (size items + (2 * (words items).length + 4)), fun o hne => ?_⟩
    rw [List.mem_range]
    refine Classical.byContradiction fun hlt => hne ?_
    have hle := Nat.le_of_not_lt hlt
    obtain ⟨j, rfl⟩ := Nat.exists_eq_add_of_le hle
    rw [show size items + (2 * (words items).length + 4) + j = size items + ((2 * (words items).length + (2 + j)) + 2) by rw [Nat.add_assoc]; congr 1; omega, objsOf_part]
    unfold partObj
    simp only
    rw [List.getElem?_eq_none (by omega)]

end

end Acltk.IosPage
