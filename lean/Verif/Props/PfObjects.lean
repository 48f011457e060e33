import Verif.Props.FwsmObjects
import Verif.Props.PfPage
/-!
# C111: every pfSense configuration has such objects
-/
namespace Acltk.PfPage
open Acltk Acltk.Resolve Acltk.Page Acltk.Pf

variable {T : Type}

section
variable (p : Pf.Parsed T)

/-- The names of interfaces and protocols in a rule. -/
def ruleWords (r : PfRule T) : List String := hostWord r.src.host ++ hostWord r.dst.host ++ [r.protocol.getD "None"]

def words : List String := p.rules.flatMap ruleWords

def otherEl : El := .obj (size p)
def addrEl : El := .obj (size p + 1)
def ifEl (n : String) : El := .obj (size p + (2 + 2 * (words p).idxOf n))
def protoEl (n : String) : El := .obj (size p + (3 + 2 * (words p).idxOf n))

/-- The objects without a name of their own. -/
def partObj : Nat → Obj
  | 0 => .other
  | 1 => .address none
  | j + 2 =>
    match (words p)[j / 2]? with
    | some n => if j % 2 = 0 then .netInterface n else .protocol n
    | none => .other

open Classical in
noncomputable def aliasEl (c : GroupClass) (n : Option String) : El :=
  if h : ∃ j, LastAlias p c n j then .obj (p.rules.length + h.choose) else .none

noncomputable def hostEl : Host → El
  | .group n _ => aliasEl p .network (some n)
  | .iface n => ifEl p n
  | .net _ | .host _ => addrEl p
  | _ => otherEl p

noncomputable def portEl : Option PortRef → El
  | none => .none
  | some (.leaf _) => otherEl p
  | some (.group n _) => aliasEl p .port n

noncomputable def ruleObj (r : PfRule T) : Obj :=
  .rule r.id (protoEl p (r.protocol.getD "None")) (hostEl p r.src.host) (portEl p r.src.port) (hostEl p r.dst.host) (portEl p r.dst.port)
    (if r.icmp.isNone then none else some (otherEl p)) []

def aliasObj : AliasGroup → Obj
  | .net n _ l => .group .network (n.getD "None") (l.map fun _ => addrEl p)
  | .port n _ l => .group .port (n.getD "None") (l.map fun _ => otherEl p)

/-- Objects of a configuration. -/
noncomputable def objsOf (o : Oid) : Obj :=
  match p.rules[o]? with
  | some r => ruleObj p r
  | none =>
    match p.groups[o - p.rules.length]? with
    | some g => aliasObj p g
    | none =>
      match p.interfaces[o - (p.rules.length + p.groups.length)]? with
      | some i => .interface i.nameif
      | none => partObj p (o - size p)

end

variable {p : Pf.Parsed T}

theorem objsOf_rule {k : Nat} {r : PfRule T} (h : p.rules[k]? = some r) : objsOf p k = ruleObj p r := by
  unfold objsOf; rw [h]

theorem objsOf_alias {j : Nat} {g : AliasGroup} (h : p.groups[j]? = some g) : objsOf p (p.rules.length + j) = aliasObj p g := by
  have h0 : p.rules[p.rules.length + j]? = none := List.getElem?_eq_none (by omega)
  unfold objsOf
  rw [h0]
  simp only
  rw [Nat.add_sub_cancel_left, h]

theorem objsOf_iface {j : Nat} {i : Ifc.Intf} (h : p.interfaces[j]? = some i) : objsOf p (p.rules.length + p.groups.length + j) = .interface i.nameif := by
  have h0 : p.rules[p.rules.length + p.groups.length + j]? = none := List.getElem?_eq_none (by omega)
  have h1 : p.groups[p.rules.length + p.groups.length + j - p.rules.length]? = none := List.getElem?_eq_none (by omega)
  unfold objsOf
  rw [h0]
  simp only
  rw [h1]
  simp only
  rw [Nat.add_sub_cancel_left, h]

theorem objsOf_part (j : Nat) : objsOf p (size p + j) = partObj p j := by
  have h0 : p.rules[size p + j]? = none := List.getElem?_eq_none (by unfold size; omega)
  have h1 : p.groups[size p + j - p.rules.length]? = none := List.getElem?_eq_none (by unfold size; omega)
  have h2 : p.interfaces[size p + j - (p.rules.length + p.groups.length)]? = none := List.getElem?_eq_none (by unfold size; omega)
  unfold objsOf
  rw [h0]
  simp only
  rw [h1]
  simp only
  rw [h2]
  simp only
  rw [Nat.add_sub_cancel_left]

theorem part_other : Part (objsOf p) p (otherEl p) (· = .other) := ⟨_, rfl, Nat.le_refl _, objsOf_part (p := p) 0⟩

theorem part_addr : Part (objsOf p) p (addrEl p) (· = .address none) := ⟨_, rfl, Nat.le_add_right _ _, objsOf_part (p := p) 1⟩

theorem words_get {n : String} (h : n ∈ words p) : (words p)[(words p).idxOf n]? = some n := by
  have hlt : (words p).idxOf n < (words p).length := List.idxOf_lt_length_of_mem h
  rw [List.getElem?_eq_getElem hlt, List.getElem_idxOf hlt]

theorem part_iface {n : String} (h : n ∈ words p) : Part (objsOf p) p (ifEl p n) (· = .netInterface n) := by
  refine ⟨_, rfl, Nat.le_add_right _ _, ?_⟩
  rw [objsOf_part, Nat.add_comm 2]
  unfold partObj
  simp only
  rw [Nat.mul_div_cancel_left _ (by decide), words_get h]
  simp

theorem part_proto {n : String} (h : n ∈ words p) : Part (objsOf p) p (protoEl p n) (· = .protocol n) := by
  refine ⟨_, rfl, Nat.le_add_right _ _, ?_⟩
  rw [objsOf_part, show 3 + 2 * (words p).idxOf n = (2 * (words p).idxOf n + 1) + 2 by omega]
  unfold partObj
  simp only
  rw [show (2 * (words p).idxOf n + 1) / 2 = (words p).idxOf n by omega, words_get h]
  simp only
  rw [if_neg (by omega)]

theorem aliasEl_at {c : GroupClass} {n : Option String} {j : Nat} (h : LastAlias p c n j) : aliasEl p c n = .obj (p.rules.length + j) := by
  have c' : ∃ j, LastAlias p c n j := ⟨j, h⟩
  unfold aliasEl
  rw [dif_pos c', lastAlias_unique c'.choose_spec h]

theorem hostEl_at (h : Host) (hw : ∀ n ∈ hostWord h, n ∈ words p) : HostAt (objsOf p) p h (hostEl p h) := by
  cases h with
  | group n l => exact fun j hj => aliasEl_at hj
  | iface n => exact part_iface (hw n (by simp [hostWord]))
  | net a => exact part_addr
  | host a => exact part_addr
  | _ => exact part_other

theorem portEl_at (v : Option PortRef) : PortAt (objsOf p) p v (portEl p v) := by
  rcases v with _ | ⟨_ | _⟩
  · rfl
  · exact part_other
  · exact fun j hj => aliasEl_at hj

/-- **C111, the hypothesis on the objects.** Every configuration has objects as `ObjectsOf` describes them. -/
theorem C111_objects (p : Pf.Parsed T) : ObjectsOf (objsOf p) p where
  rule k r h := by
    have hw : ∀ n ∈ ruleWords r, n ∈ words p := fun n hn => List.mem_flatMap.2 ⟨r, List.mem_iff_getElem?.2 ⟨k, h⟩, hn⟩
    refine ⟨_, _, _, _, _, _, objsOf_rule h, part_proto (hw _ (by simp [ruleWords])), hostEl_at _ fun n hn => hw n (by simp [ruleWords, hn]), portEl_at _,
      hostEl_at _ fun n hn => hw n (by simp [ruleWords, hn]), portEl_at _, ?_⟩
    split
    · rfl
    · exact ⟨_, rfl, part_other⟩
  alias j g h := by
    cases g with
    | net n d l =>
      refine ⟨_, objsOf_alias h, (List.length_map _).symm, ?_⟩
      intro e he
      obtain ⟨x, -, rfl⟩ := List.mem_map.1 he
      obtain ⟨q, h1, h2, h3⟩ := part_addr (p := p)
      exact ⟨q, h1, h2, Or.inl h3⟩
    | port n d l =>
      refine ⟨_, objsOf_alias h, (List.length_map _).symm, ?_⟩
      intro e he
      obtain ⟨x, -, rfl⟩ := List.mem_map.1 he
      obtain ⟨q, h1, h2, h3⟩ := part_other (p := p)
      exact ⟨q, h1, h2, Or.inr h3⟩
  iface j i h := objsOf_iface h
  parts o h := by
    obtain ⟨j, rfl⟩ := Nat.exists_eq_add_of_le h
    rw [objsOf_part]
    unfold partObj
    split
    · exact Or.inl rfl
    · exact Or.inr (Or.inl rfl)
    · split
      · split
        · exact Or.inr (Or.inr (Or.inl ⟨_, rfl⟩))
        · exact Or.inr (Or.inr (Or.inr ⟨_, rfl⟩))
      · exact Or.inl rfl
  finite := by
    refine ⟨List.range (size p + (2 + 2 * (words p).length)), fun o ho => ?_⟩
    rw [List.mem_range]
    refine Nat.lt_of_not_le fun hle => ho ?_
    obtain ⟨j, rfl⟩ := Nat.exists_eq_add_of_le (Nat.le_trans (Nat.le_add_right _ _) hle)
    have hj : 2 + 2 * (words p).length ≤ j := Nat.le_of_add_le_add_left hle
    rw [objsOf_part]
    obtain ⟨i, rfl⟩ := Nat.exists_eq_add_of_le (show 2 ≤ j by omega)
    rw [Nat.add_comm 2]
    unfold partObj
    simp only
    rw [List.getElem?_eq_none (by omega)]

end Acltk.PfPage

namespace Acltk.Static
open Acltk Acltk.Resolve Acltk.Page Acltk.Pf Acltk.PfPage Acltk.FwsmText Acltk.DetectText

/-- The hypotheses of C111 are met: the sample configuration has two aliases of the name "a"; what is listed is the second one, and the first rule refers to that one. -/
theorem C111_sample : ∃ p : Pf.Parsed Nat, Pf.parse Pf.sampleEnv Pf.sampleConfig = .ok p ∧
    detect tatsuGuard (PfFilter.parser (fun _ => some Pf.sampleConfig) Pf.sampleEnv) (String.ofList ('<' :: "pfsense/>".toList)) = .config (.pfsense (0, p)) ∧
    Named p ∧ ObjectsOf (objsOf p) p ∧ (tables (.pfsense (0, p))).rules = [0, 1] ∧
    (∀ o, Listed (objsOf p) (tables (.pfsense (0, p))) (.group .network) "a" o ↔ o = 3) ∧
    (∃ id pr sp dh dp ic as, objsOf p 0 = .rule id pr (.obj 3) sp dh dp ic as) ∧ ∃ l, objsOf p 3 = .group .network "a" l := by
  obtain ⟨p, hp, hr, hg⟩ := C61_sample
  have h : (match Pf.parse Pf.sampleEnv Pf.sampleConfig with
    | .ok p => p.groups.map aliasName == [(.network, some "a"), (.network, some "a")] && p.rules.all (fun r => r.src.port.isNone) &&
        (match p.rules[0]? with | some r => (match r.src.host with | .group n _ => n == "a" | _ => false) | none => false)
    | .error _ => false) = true := by decide +kernel
  rw [hp] at h
  simp only [Bool.and_eq_true, beq_iff_eq] at h
  obtain ⟨⟨h1, -⟩, h3⟩ := h
  have hc := PfFilter.detected tatsuGuard (fun _ => some Pf.sampleConfig) Pf.sampleEnv "pfsense/>".toList Pf.sampleConfig rfl p hp
  have hz : (findall Pf.sampleConfig "revision").length = 0 := by decide +kernel
  rw [hz] at hc
  have hN : Named p := by
    intro g hg
    have := List.mem_map.2 ⟨g, hg, (rfl : aliasName g = aliasName g)⟩
    rw [h1] at this
    simp only [List.mem_cons, List.not_mem_nil, or_false, or_self] at this
    rw [this]
    simp
  have B := C111_objects p
  have hlast : LastAlias p .network (some "a") 1 := by
    refine ⟨?_, fun q g hq hgq => absurd (lt_of_get hgq) (by omega)⟩
    have e : (p.groups.map aliasName)[1]? = some (.network, some "a") := by rw [h1]; rfl
    rw [List.getElem?_map] at e
    cases eg : p.groups[1]? with
    | none => rw [eg] at e; cases e
    | some g => rw [eg] at e; exact ⟨g, rfl, Option.some.inj e⟩
  obtain ⟨e1, -, e3, -⟩ := C111_listed hc B hN
  refine ⟨p, hp, hc, hN, B, by rw [e1, hr]; rfl, fun o => ?_, ?_, ?_⟩
  · rw [e3 .network "a" o (Or.inl rfl)]
    constructor
    · rintro ⟨j, hj, rfl⟩
      rw [lastAlias_unique hj hlast, hr]
    · rintro rfl
      exact ⟨1, hlast, by rw [hr]⟩
  · cases er : p.rules[0]? with
    | none => rw [er] at h3; cases h3
    | some r =>
      rw [er] at h3
      simp only at h3
      obtain ⟨pr, sh, sp, dh, dp, ic, e, -, h, -⟩ := B.rule 0 r er
      have hsh : sh = .obj 3 := by
        unfold PfPage.HostAt at h
        split at h
        · rename_i n l eh
          rw [eh] at h3
          simp only [beq_iff_eq] at h3
          subst h3
          rw [h 1 hlast, hr]
        all_goals (rename_i eh; first | (rw [eh] at h3; simp at h3; done) | skip)
        split at h3
        · simp_all
        · cases h3
      rw [hsh] at e
      exact ⟨_, _, _, _, _, _, _, e⟩
  · obtain ⟨-, h, -⟩ := alias_obj B hlast
    rw [hr] at h
    exact h

end Acltk.Static
