import Verif.Lemmas.FwsmRefs
import Verif.Props.FwsmFile
/-!
# C107: references of an FWSM text mean the definition in force
-/
namespace Acltk
open FwsmText Acltk.Lookup Acltk.Peg

/-- C107: wherever an element of an accepted text stands, the objects, groups, time ranges and services it refers to are the definitions in
force behind the elements before it: of objects the first definition of the name, of groups and time ranges the last one; and the source
of the NAT entry of a network object is the object of that same block. -/
theorem C107_references {g : Guard} {t r : Text} {items : List Item} (h : parseFile g t = .ok items r) {k : Nat} {i : Item}
    (hi : items[k]? = some i) :
    (∀ x ∈ hostsOf i, HostInForce (items.take k) x) ∧
    (∀ p ∈ idsOf i, ∃ n, inForce p.1 (items.take k) n = some p.2) ∧
    (∀ v ∈ servicesOf i, ∃ n w, firstOf svcDef (items.take k) n = some w ∧ v = natService n w) ∧
    ∀ n l x d, i = .netObj n l (some x) d → x.real.src = some (.host (.obj n l)) := by
  obtain ⟨s1, ht, h1, h2, h3, h4⟩ := (parseFile_refs h).1 k i hi
  exact ⟨h1, h2, fun v hv => svcRef_inForce ht (h3 v hv), h4⟩

/-- C107: no two definitions of a text share an identity. -/
theorem C107_identities {g : Guard} {t r : Text} {items : List Item} (h : parseFile g t = .ok items r) : (items.filterMap identOf).Nodup := by
  obtain ⟨s', ht⟩ := (parseFile_refs h).2
  exact ht.distinct

/-- The hypotheses are met: the sample text has a group with a network object and a rule with that group. -/
theorem C107_sample : ∃ items r i, parseFile tatsuGuard sampleText = .ok items r ∧ items[6]? = some i ∧ sampleGroup ∈ hostsOf i ∧
    lastOf netGroupDef (items.take 6) "srv" = some [.host ⟨.v4, 0x0a000001⟩, .obj "dmz" [.net ⟨.v4, 0x0a010000, 16⟩]] := by
  obtain ⟨items, h1, h2⟩ := C72_sample
  have key : ∃ i, items[6]? = some i ∧ sampleGroup ∈ hostsOf i := by
    unfold sampleItems at h1
    rcases h1 with _ | ⟨_, _, _, _, -, h1⟩
    rcases h1 with _ | ⟨_, _, _, _, -, h1⟩
    rcases h1 with _ | ⟨_, _, _, _, -, h1⟩
    rcases h1 with _ | ⟨_, _, _, _, -, h1⟩
    rcases h1 with _ | ⟨_, _, _, _, -, h1⟩
    rcases h1 with _ | ⟨_, _, _, _, -, h1⟩
    rcases h1 with _ | ⟨_, j, _, _, h, h1⟩
    refine ⟨j, rfl, ?_⟩
    cases h with
    | other => simp [hostsOf, sampleFileRule]
    | rule _ r' _ he =>
      have : r'.dst = sampleFileRule.dst := (AclText.PRule.mk.inj he).2.2.2.2.2.1
      simp [hostsOf, this, sampleFileRule]
  obtain ⟨i, hi, hh⟩ := key
  exact ⟨items, _, i, h2, hi, hh, (C107_references h2 hi).1 _ hh⟩

end Acltk
