import Verif.Lemmas.IosHosts
import Verif.Props.HostMatch
import Verif.Props.RuleMatch
import Verif.Props.IosLines
import Verif.Props.FwsmFile
/-!
# C94: the hosts of every accepted configuration are well formed
-/
namespace Acltk.Accepted
open Acltk Acltk.Lookup

/-- **C94**, FWSM/ASA: whatever text is accepted, every host of its rules, groups, network objects and NAT entries has well-formed
addresses and networks, contains no wildcard, and has no object inside an object and no group inside itself. -/
theorem C94_fwsm_hosts (g : Guard) (t r : List Char) (items : List FwsmText.Item) (h : FwsmText.parseFile g t = .ok items r) :
    ∀ i ∈ items, ∀ x, FwsmText.HostIn x i → Configured false x := by
  intro i hi x hx
  have hk := FwsmText.parseFile_items h i hi
  have side : ∀ n : NatCmd.Nat', FwsmText.NatOk false n → ∀ y,
      n.real.src = some (.host y) ∨ n.real.dst = some (.host y) ∨ n.mapped.src = some (.host y) ∨ n.mapped.dst = some (.host y) →
      Configured false y := by
    intro n hn y hy
    have one : ∀ z, FwsmText.SideOk false z → z = some (.host y) → Configured false y := by
      rintro z (rfl | ⟨w, rfl, hw⟩) e
      · cases e
      · cases e; exact hw
    rcases hy with e | e | e | e
    · exact one _ hn.1 e
    · exact one _ hn.2.1 e
    · exact one _ hn.2.2.1 e
    · exact one _ hn.2.2.2 e
  cases hx with
  | src r => exact hk.2.1
  | dst r => exact hk.2.2
  | group n l d => exact hk
  | object n l nat d => exact hk.1
  | objectNat n l y d _ hy => exact side _ (hk.2 _ rfl) x hy
  | nat y _ hy => exact side _ hk x hy

/-- A host of an element of the parse result of an IOS text. -/
inductive IosHostIn : Host → IosText.Item → Prop
  | src (r : IosText.IRule) : IosHostIn r.src.host (.rule r)
  | dst (r : IosText.IRule) : IosHostIn r.dst.host (.rule r)
  | srcs (r : IosText.IRule) (l : List IosText.IRule) : r ∈ l → IosHostIn r.src.host (.rules l)
  | dsts (r : IosText.IRule) (l : List IosText.IRule) : r ∈ l → IosHostIn r.dst.host (.rules l)
  | base (h : Host) (i : FwsmText.Item) : FwsmText.HostIn h i → IosHostIn h (.base i)

/-- **C94**, IOS: the same, but wildcards may occur. -/
theorem C94_ios_hosts (g : Guard) (t r : List Char) (items : List IosText.Item) (h : IosText.parseFile g t = .ok items r) :
    ∀ i ∈ items, ∀ x, IosHostIn x i → Configured true x := by
  intro i hi x hx
  have hk := IosText.parseFile_items h i hi
  cases hx with
  | src r => exact hk.2.1
  | dst r => exact hk.2.2
  | srcs r l hr => exact (hk r hr).2.1
  | dsts r l hr => exact (hk r hr).2.2
  | base _ b hb =>
    cases hb with
    | src r => exact absurd hk id
    | dst r => exact absurd hk id
    | group n l d => exact hk
    | object n l nat d => exact absurd hk id
    | objectNat n l y d _ hy => exact absurd hk id
    | nat y _ hy => exact absurd hk id

/-- **C94**, consequence: what holds of ordinary hosts without wildcards (C01-C07) holds of all hosts of accepted FWSM texts.  In
particular comparing any two of them never raises; the answer is whether they have an address in common, or the left one
has an `any`. -/
theorem C94_fwsm_hosts_match (g : Guard) (t r t' r' : List Char) (items items' : List FwsmText.Item)
    (h : FwsmText.parseFile g t = .ok items r) (h' : FwsmText.parseFile g t' = .ok items' r')
    (i i' : FwsmText.Item) (hi : i ∈ items) (hi' : i' ∈ items') (x y : Host) (hx : FwsmText.HostIn x i) (hy : FwsmText.HostIn y i')
    (fuel : Nat) (hf : x.depth + y.depth + 1 ≤ fuel) :
    ∃ b, meet fuel x y = .ok b ∧ (b = true ↔ HasAny x ∨ ∃ a, Covers x a ∧ Covers y a) := by
  have cx := C94_fwsm_hosts g t r items h i hi x hx
  have cy := C94_fwsm_hosts g t' r' items' h' i' hi' y hy
  exact C01_host_matching_with_wildcard x y fuel cx.ordinary cy.ordinary (fun e => cx.noWild e.1) (fun e => cx.noWild e.1)
    (fun e => cy.noWild e.1) hf

/-- **C94**, consequence for IOS: comparing a host of an accepted IOS text with one of an accepted FWSM text never raises. -/
theorem C94_mixed_hosts_match (g : Guard) (t r t' r' : List Char) (items : List IosText.Item) (items' : List FwsmText.Item)
    (h : IosText.parseFile g t = .ok items r) (h' : FwsmText.parseFile g t' = .ok items' r')
    (i : IosText.Item) (i' : FwsmText.Item) (hi : i ∈ items) (hi' : i' ∈ items') (x y : Host) (hx : IosHostIn x i) (hy : FwsmText.HostIn y i')
    (fuel : Nat) (hf : x.depth + y.depth + 1 ≤ fuel) :
    Ordinary x ∧ FlatObjects x ∧ Ordinary y ∧ FlatObjects y ∧ (∃ b, meet fuel x y = .ok b) ∧ ∃ b, meet fuel y x = .ok b := by
  have cx := C94_ios_hosts g t r items h i hi x hx
  have cy := C94_fwsm_hosts g t' r' items' h' i' hi' y hy
  refine ⟨cx.ordinary, cx.flat, cy.ordinary, cy.flat, ?_, ?_⟩
  · exact meet_total fuel (fun e => cy.noWild e.2) hf
  · exact meet_total fuel (fun e => cy.noWild e.1) (by omega)

/-! ## samples -/

/-- An IOS text with a wildcard that is no network. -/
def wildText : List Char := "ip access-list extended x\n permit ip 10.0.0.1 0.255.0.0 any\n".toList

/-- The hypotheses are met: an accepted IOS text with a wildcard … -/
theorem C94_sample : ∃ items r, IosText.parseFile tatsuGuard wildText = .ok items r ∧
    ∃ i ∈ items, IosHostIn (.wild 0x0a000001 0x00ff0000) i := by
  have h : (match IosText.parseFile tatsuGuard wildText with
      | .ok [.rules [r]] _ => (match r.src.host with | .wild a m => a == 0x0a000001 && m == 0x00ff0000 | _ => false)
      | _ => false) = true := by decide +kernel
  generalize hv : IosText.parseFile tatsuGuard wildText = v at h
  split at h
  · rename_i r u
    refine ⟨_, _, rfl, _, List.mem_singleton_self _, ?_⟩
    cases hs : r.src.host with
    | wild a m =>
      rw [hs] at h
      simp only [Bool.and_eq_true, beq_iff_eq] at h
      rw [← h.1, ← h.2, ← hs]
      exact .srcs r [r] (by simp)
    | _ => rw [hs] at h; cases h
  · cases h

/-- … and an accepted FWSM text with a group of an address and an object. -/
theorem C94_fwsm_sample : ∃ items r, FwsmText.parseFile tatsuGuard FwsmText.sampleText = .ok items r ∧
    ∃ i ∈ items, FwsmText.HostIn (.group "srv" [.host ⟨.v4, 0x0a000001⟩, .obj "dmz" [.net ⟨.v4, 0x0a010000, 16⟩]]) i := by
  obtain ⟨s, hs⟩ := FwsmText.sample_file
  obtain ⟨items, h1, h2⟩ := FwsmText.C72_file_read_as_written tatsuGuard FwsmText.tatsuGuard_name _ _ s hs (by simp [FwsmText.sampleItems])
  refine ⟨items, _, h2, ?_⟩
  have key : ∀ {a b : List FwsmText.Item}, FwsmText.SameItems a b → ∀ n l d, FwsmText.Item.netGroup n l d ∈ a →
      FwsmText.Item.netGroup n l d ∈ b := by
    intro a b h n l d
    induction h with
    | nil => exact id
    | cons i j is js hij _ ih =>
      intro hm
      rcases List.mem_cons.1 hm with rfl | hm
      · cases hij; exact List.mem_cons_self
      · exact List.mem_cons_of_mem _ (ih hm)
  exact ⟨_, key h1 "srv" _ (some "the servers".toList) (by simp [FwsmText.sampleItems]), .group _ _ _⟩

end Acltk.Accepted
