import Verif.Props.Sort
/-!
# C30: exactly which groups of networks `sort(insitu=False)` leaves alone
-/
namespace Acltk

theorem memberOf_sortable (n : Net) : Sortable (memberOf n) ∧ networkKey (memberOf n) = if n.plen = n.ver.width then (n.networkAddress.ip : Int) else (n.addr : Int) := by
  unfold memberOf
  split
  · exact ⟨⟨by simp, by simp⟩, rfl⟩
  · exact ⟨⟨by simp, by simp⟩, rfl⟩

/-- **C30, groups of networks.** `sort(insitu=False)` returns the group itself, collapsed: whatever the group was, it afterwards consists of the fewest networks that cover the same addresses, in
order. -/
theorem C30_network_exact (nm : String) (ns : List Net) (hv : ∀ n ∈ ns, n.Valid ∧ n.ver = .v4) :
    ∃ nets : List Net, netSort false (ns.map .net) = (nets.map memberOf, .ok (nets.map memberOf)) ∧
      (∀ n ∈ nets, n.Valid ∧ n.ver = .v4) ∧ nets.Pairwise Below ∧ Aggregated .v4 nets ∧
      ∀ x, CoversNets nets x ↔ CoversNets ns x := by
  have hleaf : ∀ x, Leaf (.group nm (ns.map .net)) x → ∃ n ∈ ns, x = .net n := by
    intro x hx
    rw [leaf_group] at hx
    obtain ⟨h, hm, hl⟩ := hx
    obtain ⟨n, hn, rfl⟩ := List.mem_map.1 hm
    cases hl
    exact ⟨n, hn, rfl⟩
  have hflat : FlatObjects (.group nm (ns.map .net)) := by
    intro q l hg
    cases hg with
    | group hm hg =>
      obtain ⟨n, hn, rfl⟩ := List.mem_map.1 hm
      cases hg
  have hall : AllV4 nm (ns.map .net) := by
    intro x hx
    obtain ⟨n, hn, rfl⟩ := hleaf x hx
    exact hv n hn
  have hnets : ∀ o ∈ ns.map Host.net, ∃ n, o = .net n := by
    intro o ho
    obtain ⟨n, -, rfl⟩ := List.mem_map.1 ho
    exact ⟨n, rfl⟩
  obtain ⟨nets, e, hval, hb, hag, hcov, -, h1, -⟩ := C26_collapse_v4 false nm _ hflat hall (.inl hnets)
  have hc : collapse false (ns.map .net) = (nets.map memberOf, .ok (nets.map memberOf)) := Prod.ext (h1 hnets) e
  refine ⟨nets, ?_, hval, hb, hag, ?_⟩
  · have hsort : ∀ h ∈ nets.map memberOf, netKey h = .ok (networkKey h) := by
      intro h hm
      obtain ⟨n, -, rfl⟩ := List.mem_map.1 hm
      exact netKey_eq (memberOf_sortable n).1
    obtain ⟨out, o1, o2, -⟩ := pySorted_int (key := netKey) (k := networkKey) hsort
    have hself : StableSort (· ≤ ·) networkKey (nets.map memberOf) (nets.map memberOf) := by
      refine ⟨.refl _, ?_, fun _ => rfl⟩
      rw [List.pairwise_map]
      refine hb.imp_of_mem ?_
      intro a b ha hb' hab
      have key : ∀ n ∈ nets, networkKey (memberOf n) = (n.addr : Int) := by
        intro n hn
        rw [(memberOf_sortable n).2]
        split
        · rfl
        · rfl
      rw [key a ha, key b hb']
      unfold Below at hab
      have := Nat.le_trans (Nat.le_add_right _ _) hab
      omega
    have := stableSort_unique (fun a b => Int.le_antisymm) o2 hself
    subst this
    have hany : (ns.map Host.net).any (fun o => !o.isNetOrObj) = false := by
      simp [Host.isNetOrObj]
    unfold netSort
    rw [if_neg (by simp), hc]
    simp only [o1, hany]
    rfl
  · intro x
    have := hcov x
    have k1 : ∀ l : List Host, Covers (.group nm l) x ↔ ∃ h ∈ l, Covers h x := fun l => covers_group
    rw [k1, k1] at this
    unfold CoversNets
    constructor
    · rintro ⟨n, hn, hx⟩
      obtain ⟨h, hm, hx⟩ := this.1 ⟨_, List.mem_map_of_mem hn, (covers_memberOf (hval n hn).1 x).2 hx⟩
      obtain ⟨m, hm', rfl⟩ := List.mem_map.1 hm
      exact ⟨m, hm', by cases hx; assumption⟩
    · rintro ⟨n, hn, hx⟩
      obtain ⟨h, hm, hx⟩ := this.2 ⟨_, List.mem_map_of_mem hn, .net hx⟩
      obtain ⟨m, hm', rfl⟩ := List.mem_map.1 hm
      exact ⟨m, hm', (covers_memberOf (hval m hm').1 x).1 hx⟩

/-- **C30 is violated by exactly those groups of networks** that are not in order, overlap, could be joined, or hold a network of one address. -/
theorem C30_network_unchanged_iff (ns : List Net) (hv : ∀ n ∈ ns, n.Valid ∧ n.ver = .v4) :
    (netSort false (ns.map .net)).1 = ns.map .net ↔ ns.Pairwise Below ∧ Aggregated .v4 ns ∧ ∀ n ∈ ns, n.plen ≠ 32 := by
  obtain ⟨nets, e, hval, hb, hag, hcov⟩ := C30_network_exact "" ns hv
  rw [e]
  simp only
  constructor
  · intro h
    have : nets = ns ∧ ∀ n ∈ nets, n.plen ≠ 32 := by
      clear e hb hag hcov hv
      induction nets generalizing ns with
      | nil => cases ns with
        | nil => simp
        | cons => cases h
      | cons a l ih =>
        cases ns with
        | nil => cases h
        | cons b m =>
          simp only [List.map_cons, List.cons.injEq] at h
          obtain ⟨i1, i2⟩ := ih m (fun n hn => hval n (List.mem_cons_of_mem _ hn)) h.2
          have ha := h.1
          have h32 : a.ver.width = 32 := by rw [(hval a (List.mem_cons_self ..)).2]; rfl
          unfold memberOf at ha
          split at ha
          · cases ha
          · rename_i hp
            cases ha
            rw [h32] at hp
            subst i1
            refine ⟨rfl, fun n hn => ?_⟩
            rcases List.mem_cons.1 hn with rfl | hn
            · exact hp
            · exact i2 n hn
    obtain ⟨rfl, h5⟩ := this; exact ⟨hb, hag, h5⟩
  · rintro ⟨h1, h2, h3⟩
    have : nets = ns := canonical_unique hval hv hb h1 hag h2 hcov
    subst this
    refine List.map_congr_left fun n hn => ?_
    have h32 : n.ver.width = 32 := by rw [(hv n hn).2]; rfl
    unfold memberOf
    rw [h32, if_neg (h3 n hn)]

/-- The hypotheses are met: a list with a network twice is changed. -/
theorem C30_network_exact_sample : (∀ n ∈ [(⟨.v4, 0, 8⟩ : Net), ⟨.v4, 0, 8⟩], n.Valid ∧ n.ver = .v4) ∧ ¬ [(⟨.v4, 0, 8⟩ : Net), ⟨.v4, 0, 8⟩].Pairwise Below := by
  refine ⟨by decide +kernel, ?_⟩
  simp [Below, Ver.width]

end Acltk
