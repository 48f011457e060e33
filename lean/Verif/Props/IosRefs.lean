import Verif.Lemmas.IosRefs
import Verif.Props.IosFile
/-!
# C112: references of an IOS text mean the definition in force
-/
namespace Acltk
open IosText Acltk.Lookup Acltk.Peg
open Acltk.FwsmText (HostInForce inForce identOf)

/-- C112: wherever an element of an accepted text stands, the groups its rules and members refer to are the last definitions of the names in front of it. -/
theorem C112_references {g : Guard} {t r : Text} {items : List Item} (h : parseFile g t = .ok items r) {k : Nat} {i : Item} (hi : items[k]? = some i) :
    (∀ x ∈ hostsOf i, HostInForce (defs (items.take k)) x) ∧
    (∀ p ∈ idsOf i, ∃ n, inForce p.1 (defs (items.take k)) n = some p.2) :=
  (parseFile_refs h).1 k i hi

/-- C112: no two definitions of a text share an identity. -/
theorem C112_identities {g : Guard} {t r : Text} {items : List Item} (h : parseFile g t = .ok items r) : ((defs items).filterMap identOf).Nodup := by
  obtain ⟨s', ht⟩ := (parseFile_refs h).2
  exact ht.distinct

/-- C112: an IOS text defines no network object, service object and time range. -/
theorem C112_no_objects {g : Guard} {t r : Text} {items : List Item} (h : parseFile g t = .ok items r) :
    ∀ j ∈ defs items, FwsmText.netObjDef j = none ∧ FwsmText.svcDef j = none ∧ FwsmText.idDef .svcObj j = none ∧ FwsmText.idDef .timeRange j = none := by
  intro j hj
  unfold defs at hj
  obtain ⟨i, hi, rfl⟩ := List.mem_map.1 hj
  have hb := parseFile_base h i hi
  cases i with
  | base j =>
    rcases hb j rfl with ⟨_, rfl⟩ | ⟨_, rfl⟩ | ⟨_, rfl⟩ | ⟨_, rfl⟩ | rfl | ⟨_, _, _, rfl⟩ | ⟨_, _, _, _, _, rfl⟩ | ⟨_, _, _, _, rfl⟩ | ⟨_, _, _, _, rfl⟩ | ⟨_, _, _, _, rfl⟩ <;>
      exact ⟨rfl, rfl, rfl, rfl⟩
  | _ => exact ⟨rfl, rfl, rfl, rfl⟩

theorem first_none {α : Type} {f : FwsmText.Item → Option (String × α)} {l : List FwsmText.Item} (h : ∀ j ∈ l, f j = none) (n : String) :
    FwsmText.firstOf f l n = none := by
  have : l.filterMap f = [] := List.filterMap_eq_nil_iff.2 h
  simp [FwsmText.firstOf, this]

/-- C112: no element refers to a network object, a service object or a time range, only to groups. -/
theorem C112_only_groups {g : Guard} {t r : Text} {items : List Item} (h : parseFile g t = .ok items r) {i : Item} (hi : i ∈ items) :
    (∀ x ∈ hostsOf i, ∀ n l, x ≠ .obj n l) ∧ (∀ p ∈ idsOf i, p.1 ≠ .svcObj ∧ p.1 ≠ .timeRange) := by
  obtain ⟨k, hk, e⟩ := List.mem_iff_getElem.1 hi
  obtain ⟨h1, h2⟩ := C112_references h (k := k) (i := i) (by rw [← e]; exact List.getElem?_eq_getElem hk)
  have hd : ∀ j ∈ defs (items.take k), FwsmText.netObjDef j = none ∧ FwsmText.svcDef j = none ∧ FwsmText.idDef .svcObj j = none ∧ FwsmText.idDef .timeRange j = none := by
    intro j hj
    refine C112_no_objects h j ?_
    unfold defs at hj ⊢
    obtain ⟨x, hx, rfl⟩ := List.mem_map.1 hj
    exact List.mem_map.2 ⟨x, List.mem_of_mem_take hx, rfl⟩
  refine ⟨?_, ?_⟩
  · rintro x hx n l rfl
    have : FwsmText.firstOf FwsmText.netObjDef (defs (items.take k)) n = some l := h1 _ hx
    rw [first_none fun j hj => (hd j hj).1] at this
    cases this
  · intro p hp
    obtain ⟨n, hn⟩ := h2 p hp
    refine ⟨?_, ?_⟩
    · intro e
      rw [e] at hn
      unfold inForce at hn
      rw [first_none fun j hj => (hd j hj).2.2.1] at hn
      cases hn
    · intro e
      rw [e] at hn
      replace hn : FwsmText.firstOf (FwsmText.idDef .timeRange) (defs (items.take k)).reverse n = some p.2 := hn
      rw [first_none fun j hj => (hd j (List.mem_reverse.1 hj)).2.2.2] at hn
      cases hn

/-- The hypotheses are met: the second group of the sample is the destination of a rule of the list `in1`. -/
theorem C112_sample : ∃ items r i, parseFile tatsuGuard (sampleText ++ sampleEnd) = .ok items r ∧ items[5]? = some i ∧
    Host.group "srv" [.host ⟨.v4, 0x0a000005⟩] ∈ hostsOf i ∧
    FwsmText.lastOf FwsmText.netGroupDef (defs (items.take 5)) "srv" = some [.host ⟨.v4, 0x0a000005⟩] := by
  obtain ⟨items, u, h1, h2⟩ := C80_sample
  have key : ∃ i, items[5]? = some i ∧ Host.group "srv" [.host ⟨.v4, 0x0a000005⟩] ∈ hostsOf i := by
    unfold sampleItems at h1
    rcases h1 with _ | ⟨_, _, _, _, -, h1⟩
    rcases h1 with _ | ⟨_, _, _, _, -, h1⟩
    rcases h1 with _ | ⟨_, _, _, _, -, h1⟩
    rcases h1 with _ | ⟨_, _, _, _, -, h1⟩
    rcases h1 with _ | ⟨_, _, _, _, -, h1⟩
    rcases h1 with _ | ⟨_, j, _, _, h, h1⟩
    refine ⟨j, rfl, ?_⟩
    cases h with
    | other => simp [hostsOf, itemRules, sampleExt1]
    | rules _ l he =>
      cases he with
      | cons _ r' _ l' hr _ =>
        have : r'.dst = sampleExt1.dst := by
          have := hr.2
          rw [← this]
        simp [hostsOf, itemRules, this, sampleExt1]
  obtain ⟨i, hi, hh⟩ := key
  exact ⟨items, _, i, h2, hi, hh, (C112_references h2 hi).1 _ hh⟩

end Acltk
